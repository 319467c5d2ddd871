import Verif.Lemmas.Iso2
import Verif.Py.OZ
import Verif.Props.C23_Operators

/-
C24 (operations with plain numbers), C25 (powers), C26 (divisions that fail).
-/

namespace Unc

set_option autoImplicit false
set_option linter.unusedSectionVars false

open NR Topology Filter

/-! ### C24 -/

/-- `r` after the history `cs` and `r'` after the history `cs'` are the same number `z`, except for
the dependence of `r'` on a variable `v0` on which `r` does not depend: same nominal value, same
derivatives with respect to all the other variables, same standard deviation. -/
structure SameBut (cs : List (Cmd NR)) (r : Arg NR) (cs' : List (Cmd NR)) (r' : Arg NR) (z : NR)
    (v0 : VarId) : Prop where
  nominal : sees cs (.nominal r) = .val (.flt z)
  nominal' : sees cs' (.nominal r') = .val (.flt z)
  derivatives : ∃ D D', sees cs (.derivatives r) = .dict D ∧ sees cs' (.derivatives r') = .dict D' ∧
    D v0 = none ∧ ∀ v, v ≠ v0 → D' v = D v
  stdDev : sees cs' (.stdDev r') = sees cs (.stdDev r)

theorem step_binop {s : SState NR} {op : BinOp} {x y : Arg NR} {a b : SVal NR} {r : PyRes (SVal NR)}
    (hx : x.seval s.env = some a) (hy : y.seval s.env = some b) (hu : (a.isUnc || b.isUnc) = true)
    (hr : specBinop op a b = r) : s.step (.binop op x y) = s.bind r := by
  simp only [SState.step, hx, hy, hu, hr, if_true]

theorem specVariance_snoc {vars : List (SVar NR)} {g g' : Lin NR} {n : NR} {tag : Option String}
    (h : ∀ v, v ≠ vars.length → g' v = g v) :
    specVariance (vars ++ [⟨n, fin 0, tag⟩]) g' = specVariance vars g := by
  have hlast : specVarianceTerm (vars ++ [⟨n, fin 0, tag⟩]) g' vars.length = fin 0 := by
    unfold specVarianceTerm
    cases hg : g' vars.length with
    | none => rfl
    | some d => simp [specComponent, PyFloat.eqb]
  unfold specVariance
  rw [List.length_append, List.length_singleton]
  simp only [sumVars]
  rw [hlast, ← NR.zero_eq, ExactLin.add_comm, ExactLin.zero_add]
  apply sumVars_congr
  intro v hv
  unfold specVarianceTerm
  rw [h v (Nat.ne_of_lt hv), List.getElem?_append_left hv]

theorem Reaches.results_unc {cs : List (Cmd NR)} {s : SState NR} (h : Reaches cs s) {c : Cmd NR}
    (hc : c.isCopy = false) {q : SQ NR} (hs : s.step c = s.bind (.ok (.unc q))) :
    sees (cs ++ [c]) (.nominal (next cs)) = .val (.flt q.nom) ∧
    sees (cs ++ [c]) (.derivatives (next cs)) = .dict q.grad ∧
    sees (cs ++ [c]) (.stdDev (next cs)) = .val (.flt (nrSqrt (specVariance s.vars q.grad))) := by
  obtain ⟨-, h2⟩ := h.snoc c hc
  rw [hs] at h2
  simp only [SState.bind] at h2
  have hq : (next cs).sevalUnc (⟨s.vars, s.fns, s.env ++ [some (.unc q)]⟩ : SState NR).env = some q :=
    h.next_eval (l := [])
  refine ⟨?_, ?_, (h2.stdDev hq).1⟩
  · rw [(h2.read (c := .nominal (next cs)) rfl).1]
    simp only [SState.step, seval_of_sevalUnc hq]; rfl
  · rw [(h2.read (c := .derivatives (next cs)) rfl).1]
    simp only [SState.step, SState.read, hq]

/-- **C24**: `x op a`, for a number with uncertainty `x` and a plain float `a`, is what is obtained with
`ufloat(a, 0)` in place of `a`, and its nominal value is that of the float operation. -/
theorem C24_right {cs : List (Cmd NR)} {op : BinOp} {x : Arg NR} {n a z : NR} {D : Lin NR}
    (hx : SeenAs cs x (.flt n, some D)) (hz : op.onFloats n a = .ok (.flt z)) :
    sees cs (.binop op x (.const (.flt a))) = .done ∧
    sees (cs ++ [.ufloat a (fin 0) none]) (.binop op x (next cs)) = .done ∧
    ∃ v0, SameBut (cs ++ [.binop op x (.const (.flt a))]) (next cs)
      (cs ++ [.ufloat a (fin 0) none] ++ [.binop op x (next cs)]) (next (cs ++ [.ufloat a (fin 0) none]))
      z v0 := by
  obtain ⟨s, hs⟩ := Reaches.exists cs
  obtain ⟨v, ev, sv⟩ := hs.seen hx
  rcases seen_flt sv with ⟨q, rfl, rfl, e⟩ | ⟨-, e⟩
  swap
  · cases e
  cases e
  obtain ⟨⟨c0, h0⟩, ⟨c1, h1⟩⟩ := deriv_ok hz
  have b0 : specBadStd (fin 0) = false := by simp [specBadStd, PyFloat.ltb]
  have hs2 := (hs.ufloat (n := a) none b0).2
  have e1 := specBinop_unc_flt (p := q) hz h0
  have hstep1 : s.step (.binop op x (.const (.flt a))) =
      s.bind (.ok (.unc ⟨z, Lin.comb [(c0, q.grad)], none⟩)) :=
    step_binop ev rfl rfl e1
  set s2 : SState NR := ⟨s.vars ++ [⟨a, fin 0, none⟩], s.fns,
      s.env ++ [some (.unc ⟨a, Lin.single s.vars.length, some s.vars.length⟩)]⟩ with hs2def
  have e2 := specBinop_unc_unc (p := q) (q := ⟨a, Lin.single s.vars.length, some s.vars.length⟩) hz h0 h1
  have ev2 : x.seval s2.env = some (.unc q) := seval_append ev
  have ea2 : (next cs).seval s2.env = some (.unc ⟨a, Lin.single s.vars.length, some s.vars.length⟩) :=
    seval_of_sevalUnc (hs.next_eval (l := []) (vars := s2.vars) (fns := s2.fns))
  have hstep2 : s2.step (.binop op x (next cs)) =
      s2.bind (.ok (.unc ⟨z, Lin.comb [(c0, q.grad), (c1, Lin.single s.vars.length)], none⟩)) := by
    simp only [SState.step, ev2, ea2, SVal.isUnc, Bool.true_or, if_true, e2]
  have r1 := hs.results_unc rfl hstep1
  have r2 := hs2.results_unc rfl hstep2
  have hgrad : ∀ v, v ≠ s.vars.length →
      Lin.comb [(c0, q.grad), (c1, Lin.single s.vars.length)] v = Lin.comb [(c0, q.grad)] v := by
    intro v hv
    have : (Lin.single s.vars.length : Lin NR) v = none := by simp [Lin.single, hv]
    simp [Lin.comb, Lin.add, Lin.smul, this, Lin.zero, optAdd]
  have hfresh : q.grad s.vars.length = none := by
    cases hg : q.grad s.vars.length with
    | none => rfl
    | some d =>
      have := hs.wf.keys q (sevalUnc_mem (x := x) (by simp [Arg.sevalUnc, ev])) _ _ hg
      exact absurd this (Nat.lt_irrefl _)
  refine ⟨?_, ?_, s.vars.length, ⟨r1.1, r2.1, ⟨_, _, r1.2.1, r2.2.1, ?_, hgrad⟩, ?_⟩⟩
  · rw [(hs.snoc _ rfl).1, hstep1]; rfl
  · rw [(hs2.snoc _ rfl).1, hstep2]; rfl
  · simp [Lin.comb, Lin.add, Lin.smul, hfresh, Lin.zero, optAdd]
  · rw [r1.2.2, r2.2.2, specVariance_snoc hgrad]

/-- **C24**: idem for `a op x`. -/
theorem C24_left {cs : List (Cmd NR)} {op : BinOp} {x : Arg NR} {n a z : NR} {D : Lin NR}
    (hx : SeenAs cs x (.flt n, some D)) (hz : op.onFloats a n = .ok (.flt z)) :
    sees cs (.binop op (.const (.flt a)) x) = .done ∧
    sees (cs ++ [.ufloat a (fin 0) none]) (.binop op (next cs) x) = .done ∧
    ∃ v0, SameBut (cs ++ [.binop op (.const (.flt a)) x]) (next cs)
      (cs ++ [.ufloat a (fin 0) none] ++ [.binop op (next cs) x]) (next (cs ++ [.ufloat a (fin 0) none]))
      z v0 := by
  obtain ⟨s, hs⟩ := Reaches.exists cs
  obtain ⟨v, ev, sv⟩ := hs.seen hx
  rcases seen_flt sv with ⟨q, rfl, rfl, e⟩ | ⟨-, e⟩
  swap
  · cases e
  cases e
  obtain ⟨⟨c0, h0⟩, ⟨c1, h1⟩⟩ := deriv_ok hz
  have b0 : specBadStd (fin 0) = false := by simp [specBadStd, PyFloat.ltb]
  have hs2 := (hs.ufloat (n := a) none b0).2
  have e1 := specBinop_flt_unc (q := q) hz h1
  have hstep1 : s.step (.binop op (.const (.flt a)) x) =
      s.bind (.ok (.unc ⟨z, Lin.comb [(c1, q.grad)], none⟩)) :=
    step_binop rfl ev rfl e1
  set s2 : SState NR := ⟨s.vars ++ [⟨a, fin 0, none⟩], s.fns,
      s.env ++ [some (.unc ⟨a, Lin.single s.vars.length, some s.vars.length⟩)]⟩ with hs2def
  have e2 := specBinop_unc_unc (q := q) (p := ⟨a, Lin.single s.vars.length, some s.vars.length⟩) hz h0 h1
  have ev2 : x.seval s2.env = some (.unc q) := seval_append ev
  have ea2 : (next cs).seval s2.env = some (.unc ⟨a, Lin.single s.vars.length, some s.vars.length⟩) :=
    seval_of_sevalUnc (hs.next_eval (l := []) (vars := s2.vars) (fns := s2.fns))
  have hstep2 : s2.step (.binop op (next cs) x) =
      s2.bind (.ok (.unc ⟨z, Lin.comb [(c0, Lin.single s.vars.length), (c1, q.grad)], none⟩)) := by
    simp only [SState.step, ev2, ea2, SVal.isUnc, Bool.true_or, if_true, e2]
  have r1 := hs.results_unc rfl hstep1
  have r2 := hs2.results_unc rfl hstep2
  have hgrad : ∀ v, v ≠ s.vars.length →
      Lin.comb [(c0, Lin.single s.vars.length), (c1, q.grad)] v = Lin.comb [(c1, q.grad)] v := by
    intro v hv
    have : (Lin.single s.vars.length : Lin NR) v = none := by simp [Lin.single, hv]
    simp [Lin.comb, Lin.add, Lin.smul, this, optAdd]
  have hfresh : q.grad s.vars.length = none := by
    cases hg : q.grad s.vars.length with
    | none => rfl
    | some d =>
      have := hs.wf.keys q (sevalUnc_mem (x := x) (by simp [Arg.sevalUnc, ev])) _ _ hg
      exact absurd this (Nat.lt_irrefl _)
  refine ⟨?_, ?_, s.vars.length, ⟨r1.1, r2.1, ⟨_, _, r1.2.1, r2.2.1, ?_, hgrad⟩, ?_⟩⟩
  · rw [(hs.snoc _ rfl).1, hstep1]; rfl
  · rw [(hs2.snoc _ rfl).1, hstep2]; rfl
  · simp [Lin.comb, Lin.add, Lin.smul, hfresh, Lin.zero, optAdd]
  · rw [r1.2.2, r2.2.2, specVariance_snoc hgrad]

/-- `7 - p` where `p = x*y`. -/
example : ∃ v0, SameBut (exCs ++ [.binop .sub (.const (.flt (fin 7))) (.ref 2)]) (next exCs)
    (exCs ++ [.ufloat (fin 7) (fin 0) none] ++ [.binop .sub (next exCs) (.ref 2)])
    (next (exCs ++ [.ufloat (fin 7) (fin 0) none])) (fin (7 - 15)) v0 :=
  (C24_left (op := .sub) ⟨ex_p.nominal, ex_p.derivatives⟩ rfl).2.2

/-! ### C26: divisions that fail -/

/-- **C26** does not hold for floats: `0/x` fails when `x**2` overflows, although the division of the
nominal values succeeds. (With IEEE doubles: `0/ufloat(1e200, 1)`.) -/
theorem C26_division_fails :
    BinOp.onFloats .truediv (ZN.fin 0 : OZ) (ZN.fin (10 ^ 200 : Nat) : OZ) = .ok (.flt (ZN.fin 0)) ∧
    sees ([.ufloat (ZN.fin (10 ^ 200 : Nat)) (ZN.fin 1) none] : List (Cmd OZ))
      (.binop .truediv (.const (.flt (ZN.fin 0))) (.ref 0)) = .err .overflowError := by
  constructor <;> rfl

/-! ### C25 -/

/-- **C25**: derivatives of `a ** b`, for all floats (no hypothesis on their arithmetic): 0 with respect
to `a` when `b` is 0, and 0 with respect to `b` when `a` is 0 and `b > 0`. -/
theorem C25_zero {F : Type} [PyMath F] (x y : F) :
    (PyFloat.eqb y 0 = true → BinOp.deriv0 .pow x y = .ok 0) ∧
    (PyFloat.eqb x 0 = true → PyFloat.ltb 0 y = true → BinOp.deriv1 .pow x y = .ok 0) := by
  constructor
  · intro h; simp [BinOp.deriv0, powDeriv0, h, nanIfException]
  · intro h h'; simp [BinOp.deriv1, powDeriv1, h, h', nanIfException]

theorem isPartial_pow0 {x y d : ℝ} : IsPartial (BinOp.method .pow) [x, y] 0 d ↔
    ∃ g : ℝ → ℝ, (∀ᶠ t in 𝓝 x, powReal t y = .ok (.real (fin (g t)))) ∧ HasDerivAt g d x := by
  constructor
  · rintro ⟨g, h1, h2⟩
    exact ⟨g, h1.mono fun t ht => BinOp.onFloats_pow (method_onFloats ht), h2⟩
  · rintro ⟨g, h1, h2⟩
    refine ⟨g, h1.mono fun t ht => ?_, h2⟩
    change BinOp.onFloats .pow (fin t) (fin y) = _
    simp only [BinOp.onFloats, PyOps.pow, ht]

theorem isPartial_pow1 {x y d : ℝ} : IsPartial (BinOp.method .pow) [x, y] 1 d ↔
    ∃ g : ℝ → ℝ, (∀ᶠ t in 𝓝 y, powReal x t = .ok (.real (fin (g t)))) ∧ HasDerivAt g d y := by
  constructor
  · rintro ⟨g, h1, h2⟩
    exact ⟨g, h1.mono fun t ht => BinOp.onFloats_pow (method_onFloats ht), h2⟩
  · rintro ⟨g, h1, h2⟩
    refine ⟨g, h1.mono fun t ht => ?_, h2⟩
    change BinOp.onFloats .pow (fin x) (fin t) = _
    simp only [BinOp.onFloats, PyOps.pow, ht]

/-- `c` is the true derivative with respect to operand `i`, or NaN if there is none. -/
def DerivOrNaN (op : BinOp) (x y : ℝ) (i : Nat) (c : NR) : Prop :=
  (∃ d, IsPartial op.method [x, y] i d ∧ c = fin d) ∨ ((∀ d, ¬ IsPartial op.method [x, y] i d) ∧ c = nan)

/-- **C25**: `a ** b`, where each operand is a plain float or a number with uncertainty, succeeds
whenever the power of the nominal values is a real number, with the derivatives of the chain rule,
where a derivative that does not exist is NaN. -/
theorem C25_pow {cs : List (Cmd NR)} {a b : Arg NR} {x y z : ℝ} {A B : Option (Lin NR)}
    (ha : SeenAs cs a (.flt (fin x), A)) (hb : SeenAs cs b (.flt (fin y), B))
    (hu : A ≠ none ∨ B ≠ none) (hz : BinOp.method .pow (flts [x, y]) [] = .ok (.flt (fin z))) :
    ∃ c0 c1, DerivOrNaN .pow x y 0 c0 ∧ DerivOrNaN .pow x y 1 c1 ∧
      (y = 0 → c0 = fin 0) ∧ (x = 0 → 0 < y → c1 = fin 0) ∧
      Results cs (.binop .pow a b) (.ok (.flt (fin z), some (Lin.comb (term c0 A ++ term c1 B)))) := by
  have hz' : powReal x y = .ok (.real (fin z)) := BinOp.onFloats_pow (method_onFloats hz)
  obtain ⟨c0, hc0, e0⟩ : ∃ c0, DerivOrNaN .pow x y 0 c0 ∧ BinOp.deriv0 .pow (fin x) (fin y) = .ok c0 := by
    rcases pow_deriv0_value hz' with ⟨g, d, h1, h2, e⟩ | ⟨h, e⟩
    · exact ⟨fin d, Or.inl ⟨d, isPartial_pow0.mpr ⟨g, h1, h2⟩, rfl⟩, e⟩
    · refine ⟨nan, Or.inr ⟨fun d hd => h ?_, rfl⟩, e⟩
      obtain ⟨g, h1, h2⟩ := isPartial_pow0.mp hd
      exact ⟨g, d, h1, h2⟩
  obtain ⟨c1, hc1, e1⟩ : ∃ c1, DerivOrNaN .pow x y 1 c1 ∧ BinOp.deriv1 .pow (fin x) (fin y) = .ok c1 := by
    rcases pow_deriv1_value hz' with ⟨g, d, h1, h2, e⟩ | ⟨h, e⟩
    · exact ⟨fin d, Or.inl ⟨d, isPartial_pow1.mpr ⟨g, h1, h2⟩, rfl⟩, e⟩
    · refine ⟨nan, Or.inr ⟨fun d hd => h ?_, rfl⟩, e⟩
      obtain ⟨g, h1, h2⟩ := isPartial_pow1.mp hd
      exact ⟨g, d, h1, h2⟩
  refine ⟨c0, c1, hc0, hc1, ?_, ?_, binop_results ha hb hu hz (fun _ => e0) (fun _ => e1)⟩
  · intro hy
    have := (C25_zero (fin x) (fin y)).1 (by simp [PyFloat.eqb, hy])
    rw [e0] at this
    exact Except.ok.inj this
  · intro hx hy
    have := (C25_zero (fin x) (fin y)).2 (by simp [PyFloat.eqb, hx]) (by simp [PyFloat.ltb, hy])
    rw [e1] at this
    exact Except.ok.inj this

theorem Reaches.seen_quantity {cs : List (Cmd NR)} {s : SState NR} (hs : Reaches cs s) {x : Arg NR}
    {n : NR} {D : Lin NR} {σ : VarId → NR} (hq : Quantity cs x n D σ) :
    SeenAs cs x (.flt n, some D) := ⟨hq.nominal, hq.derivatives⟩

/-- A result all of whose derivatives are NaN: its standard deviation is NaN, unless all the variables
are exact. -/
theorem nan_std {cs : List (Cmd NR)} {s : SState NR} (hs : Reaches cs s) {c : Cmd NR}
    (hc : c.isCopy = false) {q : SQ NR} {z : NR} (hstep : s.step c =
      s.bind (.ok (.unc ⟨z, Lin.comb [(nan, q.grad)], none⟩))) {σ : VarId → ℝ}
    (hσ : ∀ v, q.grad v ≠ none → ∃ cell, s.vars[v]? = some cell ∧ cell.std = fin (σ v)) :
    ((∃ v, q.grad v ≠ none ∧ σ v ≠ 0) →
      sees (cs ++ [c]) (.stdDev (next cs)) = .val (.flt nan)) ∧
    ((∀ v, q.grad v ≠ none → σ v = 0) →
      sees (cs ++ [c]) (.stdDev (next cs)) = .val (.flt (fin 0))) := by
  have hr := (hs.results_unc hc hstep).2.2
  have hcomb : ∀ v, Lin.comb [(nan, q.grad)] v = (q.grad v).map fun _ => nan := by
    intro v
    cases hg : q.grad v <;> simp [Lin.comb, Lin.add, Lin.smul, Lin.zero, optAdd, hg]
  constructor
  · rintro ⟨v, hv, hne⟩
    obtain ⟨cell, hcell, hstd⟩ := hσ v hv
    have hlt := (List.getElem?_eq_some_iff.mp hcell).1
    obtain ⟨d, hd⟩ := Option.ne_none_iff_exists'.mp hv
    rw [hr]
    have : specVariance s.vars (Lin.comb [(nan, q.grad)]) = nan := by
      unfold specVariance
      refine sumVars_nan hlt ?_
      unfold specVarianceTerm
      rw [hcomb, hd, hcell]
      simp [specComponent, hstd, PyFloat.eqb, hne, PyFloat.abs, lift1]
    rw [this]; rfl
  · intro h0
    rw [hr]
    have : specVariance s.vars (Lin.comb [(nan, q.grad)]) = fin 0 := by
      unfold specVariance
      have : ∀ v, specVarianceTerm s.vars (Lin.comb [(nan, q.grad)]) v = fin 0 := by
        intro v
        unfold specVarianceTerm
        rw [hcomb]
        cases hg : q.grad v with
        | none => rfl
        | some d =>
          obtain ⟨cell, hcell, hstd⟩ := hσ v (by simp [hg])
          simp [hcell, specComponent, hstd, h0 v (by simp [hg]), PyFloat.eqb]
      rw [show specVarianceTerm s.vars (Lin.comb [(nan, q.grad)]) = fun _ => fin 0 from funext this]
      exact sumVars_zero _
    rw [this]; simp

/-- **C25**: if `a ** y`, with a plain exponent `y`, has a value but no derivative at the nominal value
of `a`, then its standard deviation is NaN if `a` is not exact, and 0 if it is exact. -/
theorem C25_std_base {cs : List (Cmd NR)} {a : Arg NR} {x y z : ℝ} {D : Lin NR} {σ : VarId → ℝ}
    (ha : Quantity cs a (fin x) D (fun v => fin (σ v)))
    (hz : BinOp.method .pow (flts [x, y]) [] = .ok (.flt (fin z)))
    (hno : ∀ d, ¬ IsPartial (BinOp.method .pow) [x, y] 0 d) :
    ((∃ v, D v ≠ none ∧ σ v ≠ 0) →
      sees (cs ++ [.binop .pow a (.const (.flt (fin y)))]) (.stdDev (next cs)) = .val (.flt nan)) ∧
    ((∀ v, D v ≠ none → σ v = 0) →
      sees (cs ++ [.binop .pow a (.const (.flt (fin y)))]) (.stdDev (next cs)) = .val (.flt (fin 0))) := by
  obtain ⟨s, hs⟩ := Reaches.exists cs
  obtain ⟨q, h1, h2, rfl, h4⟩ := hs.quantity ha
  have hz' : powReal x y = .ok (.real (fin z)) := BinOp.onFloats_pow (method_onFloats hz)
  have hd : BinOp.deriv0 .pow q.nom (fin y) = .ok nan := by
    rw [h2]
    rcases pow_deriv0_value hz' with ⟨g, d, h1, h2, e⟩ | ⟨h, e⟩
    · exact absurd (isPartial_pow0.mpr ⟨g, h1, h2⟩) (hno d)
    · exact e
  have e1 := specBinop_unc_flt (op := .pow) (p := q) (y := fin y) (by rw [h2]; exact method_onFloats hz) hd
  refine nan_std hs (q := q) (z := fin z) rfl ?_ h4
  exact step_binop (seval_of_sevalUnc h1) rfl rfl e1

/-- **C25**: idem for `x ** b` with a plain `x`. -/
theorem C25_std_exponent {cs : List (Cmd NR)} {b : Arg NR} {x y z : ℝ} {D : Lin NR} {σ : VarId → ℝ}
    (hb : Quantity cs b (fin y) D (fun v => fin (σ v)))
    (hz : BinOp.method .pow (flts [x, y]) [] = .ok (.flt (fin z)))
    (hno : ∀ d, ¬ IsPartial (BinOp.method .pow) [x, y] 1 d) :
    ((∃ v, D v ≠ none ∧ σ v ≠ 0) →
      sees (cs ++ [.binop .pow (.const (.flt (fin x))) b]) (.stdDev (next cs)) = .val (.flt nan)) ∧
    ((∀ v, D v ≠ none → σ v = 0) →
      sees (cs ++ [.binop .pow (.const (.flt (fin x))) b]) (.stdDev (next cs)) = .val (.flt (fin 0))) := by
  obtain ⟨s, hs⟩ := Reaches.exists cs
  obtain ⟨q, h1, h2, rfl, h4⟩ := hs.quantity hb
  have hz' : powReal x y = .ok (.real (fin z)) := BinOp.onFloats_pow (method_onFloats hz)
  have hd : BinOp.deriv1 .pow (fin x) q.nom = .ok nan := by
    rw [h2]
    rcases pow_deriv1_value hz' with ⟨g, d, h1, h2, e⟩ | ⟨h, e⟩
    · exact absurd (isPartial_pow1.mpr ⟨g, h1, h2⟩) (hno d)
    · exact e
  have e1 := specBinop_flt_unc (op := .pow) (q := q) (x := fin x) (by rw [h2]; exact method_onFloats hz) hd
  refine nan_std hs (q := q) (z := fin z) rfl ?_ h4
  exact step_binop rfl (seval_of_sevalUnc h1) rfl e1

/-- `(-2) ** x` at `x = 3`, with `x` not exact: no derivative, and a NaN standard deviation. -/
example : sees (exCs ++ [.binop .pow (.const (.flt (fin (-2)))) (.ref 0)]) (.stdDev (next exCs)) =
    .val (.flt nan) := by
  have hz : powReal (-2) 3 = .ok (.real (fin ((-2) ^ (3:ℤ)))) := by
    have := pow_int_eq (x := -2) (by norm_num) 3
    simpa [PyOps.pow] using this
  refine (C25_std_exponent (z := (-2) ^ (3:ℤ)) ex_x ?_ ?_).1 ⟨0, by simp [Lin.single], by simp [exStd]⟩
  · change BinOp.onFloats .pow (fin (-2)) (fin 3) = _
    simp only [BinOp.onFloats, PyOps.pow, hz]
  · intro d hd
    obtain ⟨g, h1, h2⟩ := isPartial_pow1.mp hd
    have := pow_deriv1_true h1 h2
    simp [powDeriv1, PyFloat.eqb, PyOps.log] at this

end Unc
