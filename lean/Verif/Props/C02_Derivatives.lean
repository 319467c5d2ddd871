import Mathlib.Analysis.Calculus.FDeriv.Mul
import Mathlib.Analysis.SpecialFunctions.Pow.Deriv
import Verif.Lemmas.Replay2
import Verif.Props.C15_Compare
import Verif.Props.C27_Umath

/-
C02: the derivatives of a result are the true partial derivatives of the whole calculation.
C10: correlations are tracked exactly.
-/

set_option autoImplicit false
set_option linter.unusedSectionVars false

namespace Unc

open Topology NR Filter

/-! ### C02 -/

/-- **C02**: in a program of any length (with shared sub-results, reads, updates of standard deviations...,
but without copies), let `k` be the number of a result of differentiable operations, and `v` the number of a
variable, of nominal value `t0`. The whole calculation, run with plain floats after replacing the nominal
value of `v` by `t`, gives the value `g t` when `t` is close to `t0`; `x.nominal_value` is `g t0`, and
`x.derivatives[v]` is the derivative of `g` (which is 0 if `v` is not a key of `x.derivatives`). -/
theorem C02_derivatives {cs : List (Cmd NR)} (hc : ∀ c ∈ cs, c.isCopy = false) {k : Nat}
    (hk : SmoothResult cs k) {v : Nat} {t0 : ℝ} (hv : (variableNominals cs)[v]? = some (fin t0))
    {x : PyVal NR} {D : Lin NR} (hx : SeenAs cs (.ref k) (x, some D)) :
    ∃ (g : ℝ → ℝ) (d : ℝ), x = .flt (fin (g t0)) ∧
      (∀ᶠ t in 𝓝 t0, valueWith cs v k t = some (.flt (fin (g t)))) ∧ HasDerivAt g d t0 ∧
      (D v = some (fin d) ∨ (D v = none ∧ d = 0)) := by
  obtain ⟨s, h⟩ := Tracks.exists (v := v) (t0 := t0) cs hc (fun n' hn => by rw [hv] at hn; cases hn; rfl)
  obtain ⟨a, ha, hs⟩ := h.reaches.seen hx
  have := h.follows k hk a ha
  rw [hs] at this
  exact this

/-- **C02**: a plain result of differentiable operations does not depend on the variables. -/
theorem C02_plain {cs : List (Cmd NR)} (hc : ∀ c ∈ cs, c.isCopy = false) {k : Nat}
    (hk : SmoothResult cs k) {v : Nat} {t0 : ℝ} (hv : (variableNominals cs)[v]? = some (fin t0))
    {x : PyVal NR} (hx : SeenAs cs (.ref k) (x, none)) :
    ∀ᶠ t in 𝓝 t0, valueWith cs v k t = some x := by
  obtain ⟨s, h⟩ := Tracks.exists (v := v) (t0 := t0) cs hc (fun n' hn => by rw [hv] at hn; cases hn; rfl)
  obtain ⟨a, ha, hs⟩ := h.reaches.seen hx
  have := h.follows k hk a ha
  rw [hs] at this
  exact this

/-! ### Differentiable operations -/

theorem SeenAs.unique {cs : List (Cmd NR)} {x : Arg NR} {a b : Seen NR} (h : SeenAs cs x a)
    (h' : SeenAs cs x b) : a = b := by
  obtain ⟨s, hs⟩ := Reaches.exists cs
  obtain ⟨u, h1, h2⟩ := hs.seen h
  obtain ⟨w, h3, h4⟩ := hs.seen h'
  rw [h1] at h3
  cases h3
  rw [← h2, ← h4]

theorem diffAt_one {f : PyFn NR} {x d : ℝ} {D : Lin NR} (h : IsPartial f [x] 0 d) :
    DiffAt f [(.flt (fin x), some D)] [] (fun _ => d) := by
  obtain ⟨g, h1, h2⟩ := h
  have hp : HasFDerivAt (fun y : Fin 1 → ℝ => y 0) (ContinuousLinearMap.proj (R := ℝ) (φ := fun _ => ℝ) 0)
      (fun _ => x) := (ContinuousLinearMap.proj (R := ℝ) (φ := fun _ : Fin 1 => ℝ) 0).hasFDerivAt
  have e0 : (fun i : Fin 1 => nominalSlots [(.flt (fin x), some D)] [] i) = fun _ => x := by
    funext i; fin_cases i; rfl
  refine ⟨fun y => g (y 0), ?_, ?_⟩
  · change ∀ᶠ y in 𝓝 (fun i : Fin 1 => nominalSlots [(.flt (fin x), some D)] [] i), _
    rw [e0]
    filter_upwards [hp.continuousAt.eventually h1] with y hy
    exact hy
  · change HasFDerivAt _ _ (fun i : Fin 1 => nominalSlots [(.flt (fin x), some D)] [] i)
    rw [e0]
    have := HasDerivAt.comp_hasFDerivAt (f := fun y : Fin 1 → ℝ => y 0) (fun _ => x) h2 hp
    refine this.congr_fderiv ?_
    simp

/-- The value of an argument, which moves if it has an uncertainty. -/
noncomputable def sel (A : Option (Lin NR)) (x t : ℝ) : ℝ := if A.isSome then t else x

noncomputable def selD (A : Option (Lin NR)) (d : ℝ) : ℝ := if A.isSome then d else 0

theorem diffAt_two {f : PyFn NR} {φ : ℝ × ℝ → ℝ} {x y d0 d1 : ℝ} {A B : Option (Lin NR)}
    (he : ∀ᶠ p in 𝓝 (x, y), f (flts [p.1, p.2]) [] = .ok (.flt (fin (φ p))))
    (hd : HasFDerivAt φ (d0 • ContinuousLinearMap.fst ℝ ℝ ℝ + d1 • ContinuousLinearMap.snd ℝ ℝ ℝ) (x, y)) :
    DiffAt f [(.flt (fin x), A), (.flt (fin y), B)] [] (consSeq (selD A d0) (fun _ => selD B d1)) := by
  set y0 : Fin 2 → ℝ := fun i => nominalSlots [(.flt (fin x), A), (.flt (fin y), B)] [] i with hy0
  have hsA : HasFDerivAt (fun z : Fin 2 → ℝ => sel A x (z 0))
      (selD A 1 • ContinuousLinearMap.proj (R := ℝ) (φ := fun _ : Fin 2 => ℝ) 0) y0 := by
    cases A with
    | none => simp only [sel, selD, Option.isSome_none, Bool.false_eq_true, if_false, zero_smul]
              exact hasFDerivAt_const _ _
    | some D => simp only [sel, selD, Option.isSome_some, if_true, one_smul]
                exact (ContinuousLinearMap.proj (R := ℝ) (φ := fun _ : Fin 2 => ℝ) 0).hasFDerivAt
  have hsB : HasFDerivAt (fun z : Fin 2 → ℝ => sel B y (z 1))
      (selD B 1 • ContinuousLinearMap.proj (R := ℝ) (φ := fun _ : Fin 2 => ℝ) 1) y0 := by
    cases B with
    | none => simp only [sel, selD, Option.isSome_none, Bool.false_eq_true, if_false, zero_smul]
              exact hasFDerivAt_const _ _
    | some D => simp only [sel, selD, Option.isSome_some, if_true, one_smul]
                exact (ContinuousLinearMap.proj (R := ℝ) (φ := fun _ : Fin 2 => ℝ) 1).hasFDerivAt
  have hs := hsA.prodMk hsB
  have hxy : (fun z : Fin 2 → ℝ => (sel A x (z 0), sel B y (z 1))) y0 = (x, y) := by
    cases A <;> cases B <;> rfl
  have hmoved : ∀ z : Fin 2 → ℝ, movedCall f [(.flt (fin x), A), (.flt (fin y), B)] [] (extendSeq z) =
      f (flts [sel A x (z 0), sel B y (z 1)]) [] := by
    intro z
    cases A <;> cases B <;> rfl
  refine ⟨fun z => φ (sel A x (z 0), sel B y (z 1)), ?_, ?_⟩
  · rw [← hxy] at he
    have := hs.continuousAt.eventually he
    refine this.mono fun z hz => ?_
    exact (hmoved z).trans hz
  · have hd' := hd
    rw [← hxy] at hd'
    have := hd'.comp y0 hs
    refine this.congr_fderiv ?_
    ext z
    cases A <;> cases B <;> simp [selD, consSeq]

/-- The operators `+`, `-`, `*`, `/` and `**`, where they are differentiable in both operands. -/
def SmoothOp (op : BinOp) (x y : ℝ) : Prop :=
  op = .add ∨ op = .sub ∨ op = .mul ∨ (op = .truediv ∧ y ≠ 0) ∨ (op = .pow ∧ 0 < x)

/-- **C02**: the operators `+`, `-`, `*` are differentiable operations; so is `a/b` for a non-zero `b`, and
`a**b` for a positive `a` (operands: numbers with uncertainties, or floats). -/
theorem C02_operators {cs : List (Cmd NR)} {op : BinOp} {a b : Arg NR} {x y : ℝ} {A B : Option (Lin NR)}
    (ha : SeenAs cs a (.flt (fin x), A)) (hb : SeenAs cs b (.flt (fin y), B)) (hop : SmoothOp op x y) :
    SmoothCmd cs (.binop op a b) := by
  intro a' b' ha' hb'
  cases ha.unique ha'
  cases hb.unique hb'
  have f1 : HasFDerivAt (fun p : ℝ × ℝ => p.1) (ContinuousLinearMap.fst ℝ ℝ ℝ) (x, y) := hasFDerivAt_fst
  have f2 : HasFDerivAt (fun p : ℝ × ℝ => p.2) (ContinuousLinearMap.snd ℝ ℝ ℝ) (x, y) := hasFDerivAt_snd
  have key : ∀ {φ : ℝ × ℝ → ℝ} {d0 d1 : ℝ}, op ≠ .mod →
      (∀ᶠ p in 𝓝 (x, y), op.method (flts [p.1, p.2]) [] = .ok (.flt (fin (φ p)))) →
      HasFDerivAt φ (d0 • ContinuousLinearMap.fst ℝ ℝ ℝ + d1 • ContinuousLinearMap.snd ℝ ℝ ℝ) (x, y) →
      ∃ x' y' c, (PyVal.flt (fin x), A).1 = .flt (fin x') ∧ (PyVal.flt (fin y), B).1 = .flt (fin y') ∧
        DiffAt op.method [(.flt (fin x), A), (.flt (fin y), B)] [] c ∧
      (op = .mod → (PyVal.flt (fin y), B).2 ≠ none →
        partialDerivative (BinOp.method .mod) (.pos 1) (flts [x', y']) [] = .ok (fin (c 1))) :=
    fun hm he hd => ⟨x, y, _, rfl, rfl, diffAt_two he hd, fun h => absurd h hm⟩
  rcases hop with rfl | rfl | rfl | ⟨rfl, hy⟩ | ⟨rfl, hx⟩
  · exact key (φ := fun p => p.1 + p.2) (d0 := 1) (d1 := 1) (by simp) (Eventually.of_forall fun p => rfl)
      ((f1.add f2).congr_fderiv (by simp))
  · exact key (φ := fun p => p.1 - p.2) (d0 := 1) (d1 := -1) (by simp) (Eventually.of_forall fun p => rfl)
      ((f1.sub f2).congr_fderiv (by ext <;> simp))
  · exact key (φ := fun p => p.1 * p.2) (d0 := y) (d1 := x) (by simp) (Eventually.of_forall fun p => rfl)
      ((f1.mul f2).congr_fderiv (by ext <;> simp))
  · refine key (φ := fun p => p.1 / p.2) (d0 := y⁻¹) (d1 := - (x / y ^ 2)) (by simp) ?_ ?_
    · have : ∀ᶠ p : ℝ × ℝ in 𝓝 (x, y), p.2 ≠ 0 := f2.continuousAt.eventually (eventually_ne_nhds hy)
      filter_upwards [this] with p hp
      simp [flts, BinOp.method, BinOp.onFloats, PyFloat.truediv, hp, Except.map]
    · have h3 : HasFDerivAt (fun p : ℝ × ℝ => (p.2)⁻¹) ((-(y ^ 2)⁻¹) • ContinuousLinearMap.snd ℝ ℝ ℝ) (x, y) :=
        (hasDerivAt_inv hy).comp_hasFDerivAt (x, y) f2
      have h4 := f1.mul h3
      refine (h4.congr_fderiv ?_).congr_of_eventuallyEq (Eventually.of_forall fun p => div_eq_mul_inv _ _)
      ext <;> simp [div_eq_mul_inv]
  · refine key (φ := fun p => p.1 ^ p.2) (d0 := y * x ^ (y - 1)) (d1 := x ^ y * Real.log x) (by simp) ?_ ?_
    · have : ∀ᶠ p : ℝ × ℝ in 𝓝 (x, y), 0 < p.1 := f1.continuousAt.eventually (eventually_gt_nhds hx)
      filter_upwards [this] with p hp
      have : powReal p.1 p.2 = .ok (.real (fin (p.1 ^ p.2))) := by
        unfold powReal
        by_cases h0 : p.2 = 0
        · simp [h0]
        · simp [h0, hp.ne', hp]
      simp [flts, BinOp.method, BinOp.onFloats, PyOps.pow, this]
    · exact (Real.hasStrictFDerivAt_rpow_of_pos (x, y) hx).hasFDerivAt

/-- **C02**: the unary operators are differentiable operations where they have a derivative. -/
theorem C02_unary {cs : List (Cmd NR)} {op : UnOp} {a : Arg NR} {x d : ℝ} {A : Lin NR}
    (ha : SeenAs cs a (.flt (fin x), some A)) (hd : IsPartial op.func [x] 0 d) :
    SmoothCmd cs (.unop op a) := by
  intro a' ha'
  cases ha.unique ha'
  exact ⟨_, diffAt_one hd⟩

/-- **C02**: the functions of `umath` with one argument (except gamma and lgamma, whose derivatives are
numerical) are differentiable operations where they have a derivative. -/
theorem C02_math {cs : List (Cmd NR)} {f : Nat} {fn : MF1} (hf : (fnsOf cs)[f]? = some fn.wrapDef)
    (hfn : fn ≠ .gamma ∧ fn ≠ .lgamma) {a : Arg NR} {x d : ℝ} {A : Lin NR}
    (ha : SeenAs cs a (.flt (fin x), some A)) (hd : IsPartial fn.func [x] 0 d) :
    SmoothCmd cs (.call f [a] []) := by
  intro df av kv hdf hav hkv _
  rw [hf] at hdf
  cases hdf
  match av, kv, hav, hkv with
  | [b], [], hav, _ =>
    cases ha.unique hav.1
    refine ⟨_, diffAt_one hd, ?_, by intro i p hp; simp at hp⟩
    intro i b hb _
    cases i with
    | succ i => simp at hb
    | zero =>
      obtain ⟨g, h1, h2⟩ := hd
      obtain ⟨D, e1, e2⟩ := MF1.deriv_true hfn (h1.mono fun t ht => MF1.func_ok ht) h2
      have e2 : D (fin x) = .ok (fin d) := e2
      have := MF1.specPos e1 (fin x)
      rw [e2] at this
      exact this

/-- **C02**: the functions of `umath` with two arguments (except fmod, whose derivatives are numerical) are
differentiable operations where they are differentiable. -/
theorem C02_math_two {cs : List (Cmd NR)} {f : Nat} {fn : MF2} (hf : (fnsOf cs)[f]? = some fn.wrapDef)
    (hfn : fn ≠ .fmod) {a b : Arg NR} {x y : ℝ} {A B : Option (Lin NR)} {c : ℕ → ℝ}
    (ha : SeenAs cs a (.flt (fin x), A)) (hb : SeenAs cs b (.flt (fin y), B))
    (hd : DiffAt fn.func [(.flt (fin x), A), (.flt (fin y), B)] [] c) :
    SmoothCmd cs (.call f [a, b] []) := by
  intro df av kv hdf hav hkv _
  rw [hf] at hdf
  cases hdf
  match av, kv, hav, hkv with
  | [a', b'], [], hav, _ =>
    cases ha.unique hav.1
    cases hb.unique hav.2.1
    refine ⟨c, hd, ?_, by intro i p hp; simp at hp⟩
    intro i b hb hb'
    match i, hb with
    | 0, hb =>
      simp only [List.getElem?_cons_zero, Option.some.injEq] at hb
      subst hb
      cases A with
      | none => exact absurd rfl hb'
      | some D =>
        obtain ⟨g, h1, h2⟩ := hd.line (i := 0) (by simp)
        have h1' : ∀ᶠ t in 𝓝 x, mathReal2 fn t y = .ok (fin (g t)) := by
          have h1'' : ∀ᶠ t in 𝓝 x, fn.func (flts [t, y]) [] = .ok (.flt (fin (g t))) := by
            cases B <;> exact h1
          exact h1''.mono fun t ht => MF2.func_ok ht
        obtain ⟨D0, e1, e2⟩ := MF2.deriv0_true hfn h1' h2
        obtain ⟨D0', D1', e3, e4⟩ := MF2.analytical (F := NR) hfn
        have := MF2.specPos0 e1 e4 (fin x) (fin y)
        rw [e2] at this
        exact this
    | 1, hb =>
      simp only [List.getElem?_cons_succ, List.getElem?_cons_zero, Option.some.injEq] at hb
      subst hb
      cases B with
      | none => exact absurd rfl hb'
      | some D =>
        obtain ⟨g, h1, h2⟩ := hd.line (i := 1) (by simp)
        have h1' : ∀ᶠ t in 𝓝 y, mathReal2 fn x t = .ok (fin (g t)) := by
          have h1'' : ∀ᶠ t in 𝓝 y, fn.func (flts [x, t]) [] = .ok (.flt (fin (g t))) := by
            cases A <;> exact h1
          exact h1''.mono fun t ht => MF2.func_ok ht
        obtain ⟨D1, e1, e2⟩ := MF2.deriv1_true hfn h1' h2
        obtain ⟨D0', D1', e3, e4⟩ := MF2.analytical (F := NR) hfn
        have := MF2.specPos1 e3 e1 (fin x) (fin y)
        rw [e2] at this
        exact this
    | i + 2, hb => simp at hb

/-! ### C10 -/

/-- **C10**: let `k1` and `k2` be two results of differentiable operations in a program of any length
(without copies) that creates at least one variable. If they are the same function of each variable when this variable is close to its nominal
value, then `x1 - x2` has nominal value 0 and standard deviation 0, and `x1 == x2`. (The standard
deviations of the variables are not NaN.) -/
theorem C10_correlations {cs : List (Cmd NR)} (hc : ∀ c ∈ cs, c.isCopy = false)
    (hne : variableNominals cs ≠ []) {k1 k2 : Nat}
    (h1 : SmoothResult cs k1) (h2 : SmoothResult cs k2) {n1 n2 : NR} {D1 D2 : Lin NR} {σ : VarId → ℝ}
    (q1 : Quantity cs (.ref k1) n1 D1 (fun v => fin (σ v)))
    (q2 : Quantity cs (.ref k2) n2 D2 (fun v => fin (σ v)))
    (hsame : ∀ (v : Nat) (n : NR), (variableNominals cs)[v]? = some n →
      ∃ t0, n = fin t0 ∧ ∀ᶠ t in 𝓝 t0, valueWith cs v k1 t = valueWith cs v k2 t) :
    sees (cs ++ [.binop .sub (.ref k1) (.ref k2)]) (.nominal (next cs)) = .val (.flt (fin 0)) ∧
    sees (cs ++ [.binop .sub (.ref k1) (.ref k2)]) (.stdDev (next cs)) = .val (.flt (fin 0)) ∧
    sees cs (.compare .eq (.ref k1) (.ref k2)) = .bool true := by
  have s1 : SeenAs cs (.ref k1) (.flt n1, some D1) := ⟨q1.nominal, q1.derivatives⟩
  have s2 : SeenAs cs (.ref k2) (.flt n2, some D2) := ⟨q2.nominal, q2.derivatives⟩
  have hvar : ∀ v, (∃ t0, (variableNominals cs)[v]? = some (fin t0)) ∨ (D1 v = none ∧ D2 v = none) := by
    intro v
    by_cases hv : v < (variableNominals cs).length
    · obtain ⟨t0, e, -⟩ := hsame v _ (List.getElem?_eq_getElem hv)
      exact Or.inl ⟨t0, by rw [List.getElem?_eq_getElem hv, e]⟩
    · right
      obtain ⟨s, h⟩ := Tracks.exists (v := v) (t0 := 0) cs hc
        (fun n' hn => by rw [List.getElem?_eq_none (by omega)] at hn; cases hn)
      obtain ⟨p, e1, rfl⟩ := h.reaches.derivatives q1.derivatives
      obtain ⟨q, e2, rfl⟩ := h.reaches.derivatives q2.derivatives
      rw [← h.vars] at hv
      constructor
      · cases hd : p.grad v with
        | none => rfl
        | some d => exact absurd (h.reaches.wf.keys p (sevalUnc_mem e1) v d hd) hv
      · cases hd : q.grad v with
        | none => rfl
        | some d => exact absurd (h.reaches.wf.keys q (sevalUnc_mem e2) v d hd) hv
  -- same derivatives, same values
  have both : ∀ v t0, (variableNominals cs)[v]? = some (fin t0) →
      n1 = n2 ∧ (∃ x, n1 = fin x) ∧ D1 v ≠ some nan ∧ D2 v ≠ some nan ∧ coef (D1 v) = coef (D2 v) := by
    intro v t0 hv
    obtain ⟨g1, d1, a1, a2, a3, a4⟩ := C02_derivatives hc h1 hv s1
    obtain ⟨g2, d2, b1, b2, b3, b4⟩ := C02_derivatives hc h2 hv s2
    obtain ⟨t0', e, he⟩ := hsame v _ hv
    cases e
    have hg : ∀ᶠ t in 𝓝 t0, g1 t = g2 t := by
      filter_upwards [a2, b2, he] with t u1 u2 u3
      rw [u1, u2] at u3
      simpa using u3
    have hd : d1 = d2 := a3.unique (b3.congr_of_eventuallyEq hg)
    simp only [PyVal.flt.injEq] at a1 b1
    refine ⟨by rw [a1, b1, hg.self_of_nhds], ⟨_, a1⟩, ?_, ?_, ?_⟩
    · rcases a4 with a4 | ⟨a4, -⟩ <;> rw [a4] <;> simp
    · rcases b4 with b4 | ⟨b4, -⟩ <;> rw [b4] <;> simp
    · rcases a4 with a4 | ⟨a4, a5⟩ <;> rcases b4 with b4 | ⟨b4, b5⟩ <;> rw [a4, b4] <;> simp <;> linarith
  have hfirst : n1 = n2 ∧ ∃ x, n1 = fin x := by
    have hv := List.length_pos_iff.mpr hne
    obtain ⟨t0, e, -⟩ := hsame 0 _ (List.getElem?_eq_getElem hv)
    have ht : (variableNominals cs)[0]? = some (fin t0) := by rw [List.getElem?_eq_getElem hv, e]
    exact ⟨(both 0 t0 ht).1, (both 0 t0 ht).2.1⟩
  obtain ⟨rfl, x, rfl⟩ := hfirst
  have hn : ∀ v, D1 v ≠ some nan ∧ D2 v ≠ some nan ∧ coef (D1 v) = coef (D2 v) := by
    intro v
    rcases hvar v with ⟨t0, ht⟩ | ⟨e1, e2⟩
    · exact (both v t0 ht).2.2
    · rw [e1, e2]; simp
  obtain ⟨r, r1, -, r3⟩ := C15_equality q1 q2 (fun v => (hn v).1) (fun v => (hn v).2.1)
  have heq : sees cs (.compare .eq (.ref k1) (.ref k2)) = .bool true := by
    rw [r1, r3.mpr ⟨rfl, fun v _ => (hn v).2.2⟩]
  obtain ⟨e1, e2⟩ := (C15_equality_difference q1 q2).mp heq
  exact ⟨e1, e2, heq⟩

/-! ### Examples -/

/-- x = ufloat(3, 2), y = ufloat(5, 1), p = x*y, q = p + x, d = q - p. -/
noncomputable def smCs : List (Cmd NR) :=
  [.ufloat (fin 3) (fin 2) none, .ufloat (fin 5) (fin 1) none, .binop .mul (.ref 0) (.ref 1),
   .binop .add (.ref 2) (.ref 0), .binop .sub (.ref 3) (.ref 2)]

theorem sm_new {cs : List (Cmd NR)} {c : Cmd NR} {k : Nat} (hk : k = (cs.map Cmd.arity).sum)
    (ha : c.arity = 1) (hs : SmoothCmd cs c) (hi : ∀ j, Arg.ref j ∈ c.inputs → SmoothResult cs j) :
    SmoothResult (cs ++ [c]) k := by
  refine .new ?_ ?_ hs hi
  · rw [after_length, hk]
  · rw [after_length, hk]; simp [ha]

theorem sm_smooth : SmoothResult smCs 0 ∧ SmoothResult smCs 3 ∧ SmoothResult smCs 4 ∧
    ∃ s, Reaches smCs s ∧ s.vars.map (·.std) = [fin 2, fin 1] ∧
      ∃ q0 q3 q4 : SQ NR, s.env[0]? = some (some (.unc q0)) ∧ s.env[3]? = some (some (.unc q3)) ∧
        s.env[4]? = some (some (.unc q4)) := by
  have b2 : specBadStd (fin 2) = false := by simp [specBadStd, PyFloat.ltb]
  have b1 : specBadStd (fin 1) = false := by simp [specBadStd, PyFloat.ltb]
  have r1 := ((Reaches.nil (F := NR)).ufloat (n := fin 3) none b2).2
  have r2 := (r1.ufloat (n := fin 5) none b1).2
  have r3 := (r2.binop (op := .mul) (x := .ref 0) (y := .ref 1) rfl rfl
    (specBinop_unc_unc (z := fin (3 * 5)) rfl rfl rfl) rfl).2
  have r4 := (r3.binop (op := .add) (x := .ref 2) (y := .ref 0) rfl rfl
    (specBinop_unc_unc (z := fin (3 * 5 + 3)) rfl rfl rfl) rfl).2
  have r5 := (r4.binop (op := .sub) (x := .ref 3) (y := .ref 2) rfl rfl
    (specBinop_unc_unc (z := fin (3 * 5 + 3 - 3 * 5)) rfl rfl rfl) rfl).2
  have r2a := r2.seenAs (x := .ref 0) rfl
  have r2b := r2.seenAs (x := .ref 1) rfl
  have r3a := r3.seenAs (x := .ref 2) rfl
  have r3b := r3.seenAs (x := .ref 0) rfl
  have r4a := r4.seenAs (x := .ref 3) rfl
  have r4b := r4.seenAs (x := .ref 2) rfl
  have s0 : SmoothResult _ 0 := sm_new (cs := []) (c := .ufloat (fin 3) (fin 2) none) rfl rfl
    ⟨3, rfl⟩ (by simp [Cmd.inputs])
  have s1 : SmoothResult _ 1 := sm_new (cs := [] ++ [.ufloat (fin 3) (fin 2) none])
    (c := .ufloat (fin 5) (fin 1) none) rfl rfl ⟨5, rfl⟩ (by simp [Cmd.inputs])
  have s0 := s0.old (c := .ufloat (fin 5) (fin 1) none)
  have s2 : SmoothResult _ 2 := sm_new (c := .binop .mul (.ref 0) (.ref 1)) rfl rfl
    (C02_operators (x := 3) (y := 5) r2a r2b (by simp [SmoothOp]))
    (by intro j hj; simp [Cmd.inputs] at hj; rcases hj with rfl | rfl <;> assumption)
  have s0 := s0.old (c := .binop .mul (.ref 0) (.ref 1))
  have s3 : SmoothResult _ 3 := sm_new (c := .binop .add (.ref 2) (.ref 0)) rfl rfl
    (C02_operators (x := 3 * 5) (y := 3) r3a r3b (by simp [SmoothOp]))
    (by intro j hj; simp [Cmd.inputs] at hj; rcases hj with rfl | rfl <;> assumption)
  have s0 := s0.old (c := .binop .add (.ref 2) (.ref 0))
  have s2 := s2.old (c := .binop .add (.ref 2) (.ref 0))
  have s4 : SmoothResult _ 4 := sm_new (c := .binop .sub (.ref 3) (.ref 2)) rfl rfl
    (C02_operators (x := 3 * 5 + 3) (y := 3 * 5) r4a r4b (by simp [SmoothOp]))
    (by intro j hj; simp [Cmd.inputs] at hj; rcases hj with rfl | rfl <;> assumption)
  exact ⟨s0.old, s3.old, s4, _, r5, rfl, _, _, _, rfl, rfl, rfl⟩

theorem sm_variables : variableNominals smCs = [fin 3, fin 5] := by
  simp [variableNominals, smCs, Cmd.created, PyFloat.ltb]

/-- The derivative of `q = x*y + x` with respect to `x` is that of `t*5 + t` at 3. -/
example : ∃ (x : PyVal NR) (D : Lin NR), SeenAs smCs (.ref 3) (x, some D) ∧ D 0 = some (fin 6) ∧
    ∀ t, valueWith smCs 0 3 t = some (.flt (fin (t * 5 + t))) := by
  have hval : ∀ t, valueWith smCs 0 3 t = some (.flt (fin (t * 5 + t))) := by
    intro t
    have h10 : ¬ ((1:ℝ) < 0) := by norm_num
    simp [valueWith, smCs, withNominal, Cmd.created, PyFloat.ltb, h10, Cmd.setNominal, plainly, Plain.run, Plain.step,
      Arg.plain, plainBinop, BinOp.onFloats, valueOf]
  obtain ⟨-, h3, -, s, hs, -, q0, q, q4, -, hq, -⟩ := sm_smooth
  have hseen := hs.seenAs (x := .ref 3) (v := .unc q) (by simp [Arg.seval, hq])
  have hc : ∀ c ∈ smCs, c.isCopy = false := by
    intro c hc
    simp only [smCs, List.mem_cons, List.not_mem_nil, or_false] at hc
    rcases hc with rfl | rfl | rfl | rfl | rfl <;> rfl
  refine ⟨_, _, hseen, ?_, hval⟩
  obtain ⟨g, d, -, e2, e3, e4⟩ := C02_derivatives hc h3 (v := 0) (t0 := 3) (by rw [sm_variables]; rfl) hseen
  have hg : HasDerivAt (fun t : ℝ => t * 5 + t) d 3 := by
    refine e3.congr_of_eventuallyEq (e2.mono fun t ht => ?_)
    rw [hval] at ht
    simpa using ht
  have hd : d = 6 := by
    refine hg.unique ((((hasDerivAt_id' (3:ℝ)).mul_const 5).add (hasDerivAt_id' (3:ℝ))).congr_deriv ?_)
    norm_num
  rcases e4 with e4 | ⟨-, e4⟩
  · rw [e4, hd]
  · rw [hd] at e4; norm_num at e4

/-- `x*y + x - x*y == x` -/
example : sees smCs (.compare .eq (.ref 4) (.ref 0)) = .bool true := by
  obtain ⟨h0, -, h4, s, hs, hstd, q0, q, q4, e0, -, e4⟩ := sm_smooth
  have hc : ∀ c ∈ smCs, c.isCopy = false := by
    intro c hc
    simp only [smCs, List.mem_cons, List.not_mem_nil, or_false] at hc
    rcases hc with rfl | rfl | rfl | rfl | rfl <;> rfl
  have hσ : (fun v => ((s.vars[v]?).map (·.std)).getD 0) =
      fun v : Nat => fin (if v = 0 then 2 else if v = 1 then 1 else 0) := by
    funext v
    rw [← List.getElem?_map, hstd]
    match v with
    | 0 => rfl
    | 1 => rfl
    | v + 2 => simp
  have k4 := hs.quantity_exists (x := .ref 4) (q := q4) (by simp [Arg.sevalUnc, Arg.seval, e4])
  have k0 := hs.quantity_exists (x := .ref 0) (q := q0) (by simp [Arg.sevalUnc, Arg.seval, e0])
  rw [hσ] at k4 k0
  refine (C10_correlations hc (by rw [sm_variables]; simp) h4 h0 k4 k0 ?_).2.2
  have hval : ∀ t, valueWith smCs 0 4 t = some (.flt (fin t)) ∧ valueWith smCs 0 0 t = some (.flt (fin t)) ∧
      valueWith smCs 1 4 t = some (.flt (fin 3)) ∧ valueWith smCs 1 0 t = some (.flt (fin 3)) := by
    intro t
    have h10 : ¬ ((1:ℝ) < 0) := by norm_num
    simp [valueWith, smCs, withNominal, Cmd.created, PyFloat.ltb, h10, Cmd.setNominal, plainly, Plain.run, Plain.step,
      Arg.plain, plainBinop, BinOp.onFloats, valueOf]
  rw [sm_variables]
  intro v n hv
  match v, hv with
  | 0, hv =>
    cases hv
    exact ⟨3, rfl, Eventually.of_forall fun t => by rw [(hval t).1, (hval t).2.1]⟩
  | 1, hv =>
    cases hv
    exact ⟨5, rfl, Eventually.of_forall fun t => by rw [(hval t).2.2.1, (hval t).2.2.2]⟩
  | v + 2, hv => simp at hv

end Unc
