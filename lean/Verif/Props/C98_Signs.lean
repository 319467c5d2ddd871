import Verif.Lemmas.Done
import Verif.Lemmas.RoundingCopy
import Verif.Lemmas.Signs
import Verif.Lemmas.SqrtSquare
import Verif.Spec.Observe

/-
C98: additions of constants and changes of sign do not change uncertainties, exactly, in double precision.
-/

namespace Unc

set_option autoImplicit false

variable {F : Type} [PyMath F]

/-- The result of the command `c`, run after `cs`, has exactly the derivatives of `x`, the same contributions of the variables to
its uncertainty, and the same standard deviation (`x.s` is calculated from the derivatives, for variables too). -/
structure SameUncertainty (cs : List (Cmd F)) (c : Cmd F) (x : Arg F) : Prop where
  done : sees cs c = .done
  derivatives : sees (cs ++ [c]) (.derivatives (next cs)) = sees cs (.derivatives x)
  components : sees (cs ++ [c]) (.errorComponents (next cs)) = sees cs (.errorComponents x)
  std : sees (cs ++ [c]) (.stdDev (next cs)) = sees cs (.s x)
  s : sees (cs ++ [c]) (.s (next cs)) = sees cs (.s x)

/-- The same with opposite derivatives. -/
structure OppositeUncertainty (cs : List (Cmd F)) (c : Cmd F) (x : Arg F) : Prop where
  done : sees cs c = .done
  derivatives : ∀ D, sees cs (.derivatives x) = .dict D →
    sees (cs ++ [c]) (.derivatives (next cs)) = .dict (fun v => (D v).map fun d => -d)
  components : sees (cs ++ [c]) (.errorComponents (next cs)) = sees cs (.errorComponents x)
  std : sees (cs ++ [c]) (.stdDev (next cs)) = sees cs (.s x)
  s : sees (cs ++ [c]) (.s (next cs)) = sees cs (.s x)

section
variable [Halts F] [Rounded F]

theorem nodup_after (cs : List (Cmd F)) (i : NodeId) (d : Derivs F) (h : (after cs).w.nodes[i]? = some (.dict d)) : KeysNodup d := by
  obtain ⟨g, s, hg, -⟩ := RRel.afterAll cs
  exact (hg.inv.den.cell i _ h).1

theorem evalUnc_of_seen {cs : List (Cmd F)} {x : Arg F} {D : VarId → Option F} (h : sees cs (.derivatives x) = .dict D) :
    ∃ u, x.evalUnc (after cs).env = some u ∧ x.eval (after cs).env = some (.unc u) := by
  cases hu : x.evalUnc (after cs).env with
  | none => simp [sees, Machine.step, Machine.read, hu, Machine.invalid] at h
  | some u =>
    refine ⟨u, rfl, ?_⟩
    simp only [Arg.evalUnc] at hu
    split at hu
    · rename_i e; cases hu; exact e
    · cases hu

/-- What is seen of the result of a command that calls a wrapped function. -/
theorem seen_sign {cs : List (Cmd F)} {x : Arg F} {p : UF F} (hp : x.evalUnc (after cs).env = some p) {c : Cmd F} {fid : Nat} {df : WrapDef F}
    (hdf : ((after cs).w.wraps[fid]?).map Wrapped.df = some df) {args : List (Val F)} {z k : F} {σ : F → F} (s : SignCoef k σ)
    (hc : callSpec df args [] = .ok (.inr (z, [.pair k p.lin])))
    (hstep : ∀ w' u, (after cs).w.call fid args [] = (w', .ok (.unc u)) →
      (after cs).step c = (⟨w', (after cs).env ++ [some (.unc u)]⟩, .done)) :
    sees cs c = .done ∧
    (∃ D : Derivs F, sees cs (.derivatives x) = .dict (fun v => D.lookup v) ∧
      sees (cs ++ [c]) (.derivatives (next cs)) = .dict (fun v => (D.lookup v).map σ)) ∧
    sees (cs ++ [c]) (.errorComponents (next cs)) = sees cs (.errorComponents x) ∧
    sees (cs ++ [c]) (.stdDev (next cs)) = sees cs (.s x) ∧
    sees (cs ++ [c]) (.s (next cs)) = sees cs (.s x) := by
  have hm := MShape.after cs
  obtain ⟨w', u, D, h1, h2, h3, h4, h5, h6⟩ :=
    World.call_sign hm.shape (nodup_after cs) hdf (hm.evalUnc hp).1 s hc
  have hst := hstep w' u h1
  have hg : ((after cs).env ++ [some (Val.unc u)])[(after cs).env.length]? = some (some (.unc u)) := by simp
  have ha : after (cs ++ [c]) = ⟨w', (after cs).env ++ [some (.unc u)]⟩ := by rw [after_snoc', hst]
  have hr : ∀ {α : Type} (f : α → Out F) (r r' : World F × PyRes α), r.2 = r'.2 → (mapRes f r).2 = (mapRes f r').2 := by
    intro α f r r' h
    simp only [mapRes, h]
  have hread : ∀ (f : World F → UF F → World F × PyRes (Out F)),
      (f w' u).2 = (f (after cs).w p).2 → ((after (cs ++ [c])).read (next cs) f).2 = ((after cs).read x f).2 := by
    intro f hf
    have hq : (next cs : Arg F).evalUnc ((after cs).env ++ [some (Val.unc u)]) = some u := by
      simp only [next, Arg.evalUnc, Arg.eval, hg, Option.join, Option.bind, id]
    simp only [ha, Machine.read, hq, hp]
    generalize e1 : f w' u = r1 at hf ⊢
    generalize e2 : f (after cs).w p = r2 at hf ⊢
    obtain ⟨w1, r1⟩ := r1
    obtain ⟨w2, r2⟩ := r2
    cases hf
    cases r1 <;> rfl
  have hs := hread (fun w u => mapRes (fun s => .val (.flt s)) (w.affStdDev u)) (hr _ _ _ h6)
  refine ⟨by simp only [sees, hst], ⟨D, ?_, ?_⟩, hread _ (hr _ _ _ h5), ?_, hs⟩
  · simp only [sees, Machine.step, Machine.read, hp]
    generalize (after cs).w.derivatives p = r at h3
    obtain ⟨w1, r⟩ := r
    cases h3
    rfl
  · simp only [sees, ha, next, Machine.step, Machine.read, Arg.evalUnc, Arg.eval, hg, Option.join, Option.bind, id]
    generalize w'.derivatives u = r at h4
    obtain ⟨w1, r⟩ := r
    cases h4
    simp only [mapRes, Except.map]
    congr 1
    funext v
    exact lookup_signDict σ D v
  · refine Eq.trans ?_ hs
    simp only [sees, ha, next, Machine.step, Machine.read, Arg.evalUnc, Arg.eval, hg, Option.join, Option.bind, id, World.stdDevOf,
      World.stdDev, h2]
    cases w'.affStdDev u with
    | mk w1 r => cases r <;> rfl

variable [SignLaws F]

theorem same_of {cs : List (Cmd F)} {x : Arg F} {c : Cmd F} (h : sees cs c = .done ∧
    (∃ D : Derivs F, sees cs (.derivatives x) = .dict (fun v => D.lookup v) ∧
      sees (cs ++ [c]) (.derivatives (next cs)) = .dict (fun v => (D.lookup v).map fun a => a)) ∧
    sees (cs ++ [c]) (.errorComponents (next cs)) = sees cs (.errorComponents x) ∧
    sees (cs ++ [c]) (.stdDev (next cs)) = sees cs (.s x) ∧
    sees (cs ++ [c]) (.s (next cs)) = sees cs (.s x)) : SameUncertainty cs c x := by
  obtain ⟨h1, ⟨D, h2, h3⟩, h4, h5, h6⟩ := h
  refine ⟨h1, ?_, h4, h5, h6⟩
  rw [h3, h2]
  congr 1
  funext v
  simp

theorem opposite_of {cs : List (Cmd F)} {x : Arg F} {c : Cmd F} (h : sees cs c = .done ∧
    (∃ D : Derivs F, sees cs (.derivatives x) = .dict (fun v => D.lookup v) ∧
      sees (cs ++ [c]) (.derivatives (next cs)) = .dict (fun v => (D.lookup v).map fun a => -a)) ∧
    sees (cs ++ [c]) (.errorComponents (next cs)) = sees cs (.errorComponents x) ∧
    sees (cs ++ [c]) (.stdDev (next cs)) = sees cs (.s x) ∧
    sees (cs ++ [c]) (.s (next cs)) = sees cs (.s x)) : OppositeUncertainty cs c x := by
  obtain ⟨h1, ⟨D, h2, h3⟩, h4, h5, h6⟩ := h
  refine ⟨h1, fun D' hD' => ?_, h4, h5, h6⟩
  rw [h2] at hD'
  cases hD'
  exact h3

/-- **C98**: adding a constant to a number with uncertainty `x`, or subtracting a constant from it, does not change its
uncertainty at all: no rounding happens in derivatives, even if the nominal value is rounded, overflows, or is NaN. -/
theorem C98_shift (cs : List (Cmd F)) (x : Arg F) (D : VarId → Option F) (hx : sees cs (.derivatives x) = .dict D) (a : F) :
    SameUncertainty cs (.binop .add x (.const (.flt a))) x ∧
    SameUncertainty cs (.binop .add (.const (.flt a)) x) x ∧
    SameUncertainty cs (.binop .sub x (.const (.flt a))) x := by
  obtain ⟨p, hp, he⟩ := evalUnc_of_seen hx
  have hm := MShape.after cs
  refine ⟨same_of (seen_sign (z := p.nom + a) hp (hm.ops.binop .add) (args := [.unc p, .plain (.flt a)]) signCoef_one rfl ?_),
    same_of (seen_sign (z := a + p.nom) hp (hm.ops.rbinop .add) (args := [.unc p, .plain (.flt a)]) signCoef_one rfl ?_),
    same_of (seen_sign (z := p.nom - a) hp (hm.ops.binop .sub) (args := [.unc p, .plain (.flt a)]) signCoef_one rfl ?_)⟩
  all_goals
    intro w' u h
    simp only [Machine.step, he, show (Arg.const (.flt a) : Arg F).eval (after cs).env = some (.plain (.flt a)) from rfl, Val.isUnc, Bool.or_false, Bool.false_or, if_true, World.binop, h, Machine.bind]

/-- **C98**: subtracting `x` from a constant gives opposite derivatives, and the same uncertainty. -/
theorem C98_reflected (cs : List (Cmd F)) (x : Arg F) (D : VarId → Option F) (hx : sees cs (.derivatives x) = .dict D) (a : F) :
    OppositeUncertainty cs (.binop .sub (.const (.flt a)) x) x := by
  obtain ⟨p, hp, he⟩ := evalUnc_of_seen hx
  have hm := MShape.after cs
  refine opposite_of (seen_sign (z := a - p.nom) hp (hm.ops.rbinop .sub) (args := [.unc p, .plain (.flt a)]) signCoef_neg rfl ?_)
  intro w' u h
  simp only [Machine.step, he, show (Arg.const (.flt a) : Arg F).eval (after cs).env = some (.plain (.flt a)) from rfl, Val.isUnc, Bool.or_false, Bool.false_or, if_true, World.binop, h, Machine.bind]

/-- **C98**: `-x` has opposite derivatives and the same uncertainty; `+x` has the same ones. -/
theorem C98_signs (cs : List (Cmd F)) (x : Arg F) (D : VarId → Option F) (hx : sees cs (.derivatives x) = .dict D) :
    OppositeUncertainty cs (.unop .neg x) x ∧ SameUncertainty cs (.unop .pos x) x := by
  obtain ⟨p, hp, he⟩ := evalUnc_of_seen hx
  have hm := MShape.after cs
  refine ⟨opposite_of (seen_sign (z := -p.nom) hp (hm.ops.unop .neg) (args := [.unc p]) signCoef_neg rfl ?_),
    same_of (seen_sign (z := p.nom) hp (hm.ops.unop .pos) (args := [.unc p]) signCoef_one rfl ?_)⟩
  all_goals
    intro w' u h
    simp only [Machine.step, hp, he, World.unop, h, Machine.bind]

/-- **C98**: `abs(x)` has the derivatives of `x` if its nominal value is at least 0, the opposite derivatives otherwise, and the
same uncertainty in both cases. -/
theorem C98_abs (cs : List (Cmd F)) (x : Arg F) (D : VarId → Option F) (hx : sees cs (.derivatives x) = .dict D) (a : F)
    (ha : sees cs (.nominal x) = .val (.flt a)) :
    (if geb a 0 then SameUncertainty cs (.unop .abs x) x else OppositeUncertainty cs (.unop .abs x) x) := by
  obtain ⟨p, hp, he⟩ := evalUnc_of_seen hx
  have hm := MShape.after cs
  have hpa : p.nom = a := by
    simp only [sees, Machine.step, he, Val.nominal, Out.val.injEq, PyVal.flt.injEq] at ha
    exact ha
  have hst : ∀ w' u, (after cs).w.call UnOp.abs.id [.unc p] [] = (w', .ok (.unc u)) →
      (after cs).step (.unop .abs x) = (⟨w', (after cs).env ++ [some (.unc u)]⟩, .done) := by
    intro w' u h
    simp only [Machine.step, hp, he, World.unop, h, Machine.bind]
  have hspec : ∀ k : F, UnOp.abs.deriv p.nom = .ok k →
      callSpec (UnOp.abs.wrapDef : WrapDef F) [.unc p] [] = .ok (.inr (PyFloat.abs p.nom, [.pair k p.lin])) := by
    intro k hk
    have h0 : (UnOp.abs.wrapDef : WrapDef F).specPos 0 [.flt p.nom] [] = .ok k := hk
    simp only [callSpec, List.map_cons, List.map_nil, Val.nominal, List.all_cons, Val.isUnc, List.all_nil, Bool.not_true, Bool.false_and,
      posEnd, posSpec, h0, kwEnd, kwSpec, show (UnOp.abs.wrapDef : WrapDef F).f [.flt p.nom] [] = .ok (.flt (PyFloat.abs p.nom)) from rfl,
      PyVal.floatLike, PyVal.toFloat]
    simp
  split
  · rename_i hg
    exact same_of (seen_sign (z := PyFloat.abs p.nom) hp (hm.ops.unop .abs) signCoef_one
      (hspec 1 (by simp only [UnOp.deriv, hpa, hg, if_true])) hst)
  · rename_i hg
    exact opposite_of (seen_sign (z := PyFloat.abs p.nom) hp (hm.ops.unop .abs) signCoef_neg
      (hspec (-1) (by simp only [UnOp.deriv, hpa]; simp [hg])) hst)

/-- The commands of `x + a₀ + a₁ + …` after the history `cs`. -/
def addAll (cs : List (Cmd F)) : Arg F → List F → List (Cmd F)
  | _, [] => []
  | x, a :: as => .binop .add x (.const (.flt a)) :: addAll (cs ++ [.binop .add x (.const (.flt a))]) (next cs) as

/-- The result of `x + a₀ + a₁ + …`. -/
def addAllResult (cs : List (Cmd F)) : Arg F → List F → Arg F
  | x, [] => x
  | x, a :: as => addAllResult (cs ++ [.binop .add x (.const (.flt a))]) (next cs) as

/-- **C98**: any number of constants can be added: the derivatives and the uncertainty are still exactly those of `x`. -/
theorem C98_shifts (cs : List (Cmd F)) (x : Arg F) (D : VarId → Option F) (hx : sees cs (.derivatives x) = .dict D) (as : List F) :
    sees (cs ++ addAll cs x as) (.derivatives (addAllResult cs x as)) = .dict D ∧
    sees (cs ++ addAll cs x as) (.errorComponents (addAllResult cs x as)) = sees cs (.errorComponents x) ∧
    sees (cs ++ addAll cs x as) (.s (addAllResult cs x as)) = sees cs (.s x) := by
  induction as generalizing cs x with
  | nil => simp [addAll, addAllResult, hx]
  | cons a as ih =>
    obtain ⟨h, -, -⟩ := C98_shift cs x D hx a
    obtain ⟨h1, h2, h3⟩ := ih (cs ++ [.binop .add x (.const (.flt a))]) (next cs) (h.derivatives.trans hx)
    simp only [List.append_assoc, List.singleton_append] at h1 h2 h3
    exact ⟨h1, h2.trans h.components, h3.trans h.s⟩

end

/-- **C98**: for a variable (a number that has a tag) whose standard deviation `s` is between `2^-511` and `2^511`, the standard
deviation calculated from the derivatives is exactly `s`: the square root of the square is not rounded. -/
theorem C98_variable (cs : List (Cmd D64)) (x : Arg D64) (t : Option String) (ht : sees cs (.tag x) = .tag t) (s : D64)
    (hs : sees cs (.stdDev x) = .val (.flt s)) (h1 : (2 : ℝ)⁻¹ ^ 511 ≤ Rounded.val s) (h2 : Rounded.val s < 2 ^ 511) :
    sees cs (.s x) = .val (.flt s) := by
  have hm := MShape.after cs
  cases hu : x.evalUnc (after cs).env with
  | none => simp [sees, Machine.step, Machine.read, hu, Machine.invalid] at ht
  | some u =>
    have he : x.eval (after cs).env = some (.unc u) := by
      simp only [Arg.evalUnc] at hu
      split at hu
      · rename_i e; cases hu; exact e
      · cases hu
    cases hv : u.var with
    | none => simp [sees, Machine.step, Machine.read, hu, World.tag, hv, mapRes, Except.map] at ht
    | some v =>
      obtain ⟨cell, hc, hl, -⟩ := (hm.evalUnc hu).2 v hv
      have hn := hm.shape.vars v cell hc
      rw [hl] at hn
      have hstd : cell.std = s := by
        simp only [sees, Machine.step, he, World.stdDevOf, World.stdDev, hv, hc, Out.val.injEq, PyVal.flt.injEq] at hs
        exact hs
      obtain ⟨k1, k2, y, k3, k4⟩ := D64.sqrt_sq h1 h2
      have hd : (after cs).w.derivatives u = ((after cs).w, .ok [(v, 1)]) := by
        simp only [World.derivatives, readDerivs, hn]
      have hl : errorLoop (after cs).w.vars [(v, 1)] = .ok [(v, s)] := by
        simp only [errorLoop, hc, hstd, k1, SignLaws.one_mul, k2]
        rfl
      have hq : sumSquares [s] 0 = .ok y := by
        simp only [sumSquares, k3, SignLaws.zero_add]
      simp only [sees, Machine.step, Machine.read, hu, World.affStdDev, World.errorComponents, hd, hl, List.map_cons, List.map_nil, hq, k4,
        mapRes, Except.map]

/-- **C98**: `x + a`, `a + x`, `x - a`, `a - x`, `-x` and `+x` have exactly the standard deviation of the variable `x`, if it is
between `2^-511` and `2^511`. -/
theorem C98_std_dev (cs : List (Cmd D64)) (x : Arg D64) (t : Option String) (ht : sees cs (.tag x) = .tag t) (s : D64)
    (hs : sees cs (.stdDev x) = .val (.flt s)) (h1 : (2 : ℝ)⁻¹ ^ 511 ≤ Rounded.val s) (h2 : Rounded.val s < 2 ^ 511) (a : D64)
    (c : Cmd D64) (hc : c ∈ [.binop .add x (.const (.flt a)), .binop .add (.const (.flt a)) x, .binop .sub x (.const (.flt a)),
      .binop .sub (.const (.flt a)) x, .unop .neg x, .unop .pos x]) :
    sees (cs ++ [c]) (.stdDev (next cs)) = .val (.flt s) := by
  have hv := C98_variable cs x t ht s hs h1 h2
  have hx : ∃ D, sees cs (.derivatives x) = .dict D := by
    have hm := MShape.after cs
    cases hu : x.evalUnc (after cs).env with
    | none => simp [sees, Machine.step, Machine.read, hu, Machine.invalid] at ht
    | some u =>
      obtain ⟨d, hd⟩ := readDerivs_terminates _ hm.shape.heap u.lin (hm.evalUnc hu).1
      exact ⟨fun v => d.lookup v, by simp only [sees, Machine.step, Machine.read, hu, World.derivatives, hd, mapRes, Except.map]⟩
  obtain ⟨D, hx⟩ := hx
  obtain ⟨p1, p2, p3⟩ := C98_shift cs x D hx a
  have p4 := C98_reflected cs x D hx a
  obtain ⟨p5, p6⟩ := C98_signs cs x D hx
  simp only [List.mem_cons, List.not_mem_nil, or_false] at hc
  rw [← hv]
  rcases hc with rfl | rfl | rfl | rfl | rfl | rfl
  · exact p1.std
  · exact p2.std
  · exact p3.std
  · exact p4.std
  · exact p5.std
  · exact p6.std

/-! ### The hypotheses are met -/

/-- `x = ufloat(0.1, 0.3)` and `y = x*x*x`, with doubles. -/
def exSigns : List (Cmd D64) :=
  [.ufloat (.of (.fin (3602879701896397 * 2 ^ 1019))) (.of (.fin (5404319552844595 * 2 ^ 1020))) none,
   .binop .mul (.ref 0) (.ref 0), .binop .mul (.ref 1) (.ref 0)]

set_option maxRecDepth 100000 in
theorem exSigns_derivatives : ∃ D, sees exSigns (.derivatives (.ref 2)) = .dict D ∧ ∃ d, D 0 = some d ∧ d ≠ 0 := by
  refine ⟨_, rfl, _, rfl, ?_⟩
  decide +kernel

/-- `y + 1` has the uncertainty of `y`. -/
example : SameUncertainty exSigns (.binop .add (.ref 2) (.const (.flt 1))) (.ref 2) := by
  obtain ⟨D, hD, -⟩ := exSigns_derivatives
  exact (C98_shift exSigns _ D hD 1).1

/-- `-y` and `abs(y)`. -/
example : OppositeUncertainty exSigns (.unop .neg (.ref 2)) (.ref 2) := by
  obtain ⟨D, hD, -⟩ := exSigns_derivatives
  exact (C98_signs exSigns _ D hD).1

set_option maxRecDepth 100000 in
/-- `ufloat(1, 1) + 1` has standard deviation 1, exactly. -/
example : sees ([.ufloat (1 : D64) 1 none] ++ [.binop .add (.ref 0) (.const (.flt 1))]) (.stdDev (next [.ufloat (1 : D64) 1 none])) =
    .val (.flt 1) := by
  refine C98_std_dev _ (.ref 0) none rfl 1 rfl ?_ ?_ 1 _ (by simp)
  · rw [Rounded.val_one]
    exact pow_le_one₀ (by norm_num) (by norm_num)
  · rw [Rounded.val_one]
    exact one_lt_pow₀ (by norm_num) (by norm_num)

set_option maxRecDepth 100000 in
/-- The bounds are needed: the square of `2^-600` underflows, and `ufloat(1, 2^-600) + 1` has standard deviation 0. -/
theorem C98_underflow : sees [.ufloat (1 : D64) (.of (.fin (2 ^ 474))) none] (.stdDev (.ref 0)) = .val (.flt (.of (.fin (2 ^ 474)))) ∧
    sees ([.ufloat (1 : D64) (.of (.fin (2 ^ 474))) none] ++ [.binop .add (.ref 0) (.const (.flt 1))])
      (.stdDev (next [.ufloat (1 : D64) (.of (.fin (2 ^ 474))) none])) = .val (.flt 0) :=
  ⟨rfl, rfl⟩

end Unc
