import Verif.Lemmas.Done
import Verif.Lemmas.ReadTerms
import Verif.Lemmas.RoundingCopy
import Verif.Lemmas.Stays
import Verif.Py.B64
import Verif.Spec.ReadOnce

/-
C88: derivatives that were read are final, and operations on them apply the chain rule with one product for each operand.
-/

namespace Unc

set_option autoImplicit false

section any
variable {F : Type} [PyMath F] [Halts F]

theorem evalUnc_of_dict {cs : List (Cmd F)} {x : Arg F} {D : VarId → Option F}
    (h : sees cs (.derivatives x) = .dict D) : ∃ u w' d, x.evalUnc (after cs).env = some u ∧ u.Valid (after cs).w ∧
      (after cs).w.derivatives u = (w', .ok d) ∧ w'.nodes[u.lin]? = some (.dict d) ∧ ∀ v, d.lookup v = D v := by
  have hm := MShape.after cs
  cases hu : x.evalUnc (after cs).env with
  | none => simp [sees, Machine.step, Machine.read, hu, Machine.invalid] at h
  | some u =>
    have hv := hm.evalUnc hu
    obtain ⟨d, hd⟩ := readDerivs_terminates _ hm.shape.heap u.lin hv.1
    have h1 : (after cs).w.derivatives u = ({ (after cs).w with nodes := (after cs).w.nodes.set u.lin (.dict d) }, .ok d) := by
      simp only [World.derivatives, hd]
    refine ⟨u, _, d, rfl, hv, h1, List.getElem?_set_self hv.1, fun v => ?_⟩
    simp only [sees, Machine.step, Machine.read, hu, h1, mapRes, Except.map, Out.dict.injEq] at h
    exact congrFun h v

theorem errorComponents_nodes {w w' : World F} {u : UF F} {d : Derivs F} (h : w.derivatives u = (w', .ok d)) :
    (w.errorComponents u).1 = w' := by
  simp only [World.errorComponents, h]

theorem affStdDev_nodes {w w' : World F} {u : UF F} {d : Derivs F} (h : w.derivatives u = (w', .ok d)) :
    (w.affStdDev u).1 = w' := by
  have := errorComponents_nodes h
  simp only [World.affStdDev]
  split
  · rename_i e; rw [e] at this; exact this
  · rename_i e; rw [e] at this; split <;> exact this

omit [Halts F] in
theorem stdScore_nodes (w : World F) (u : UF F) (value : F) : (w.stdScore u value).1 = (w.stdDev u).1 := by
  simp only [World.stdScore]
  cases w.stdDev u with
  | mk w' r =>
    cases r with
    | error e => cases e <;> rfl
    | ok s =>
      simp only []
      cases PyFloat.truediv (value - u.nom) s with
      | error e => cases e <;> rfl
      | ok r => rfl

/-- After one of the commands that calculate derivatives, they are stored. -/
theorem calculated {cs : List (Cmd F)} {k : Nat} {D : VarId → Option F} {c : Cmd F} {value : F}
    (hc : c ∈ calculates k value)
    (h : sees cs (.derivatives (.ref k)) = .dict D) :
    ∃ u d, (Arg.ref k : Arg F).evalUnc (after (cs ++ [c])).env = some u ∧
      (after (cs ++ [c])).w.nodes[u.lin]? = some (.dict d) ∧ ∀ v, d.lookup v = D v := by
  obtain ⟨u, w', d, h1, h2, h3, h4, h5⟩ := evalUnc_of_dict h
  have hx : (Arg.ref k : Arg F).eval (after cs).env = some (.unc u) := by
    simp only [Arg.evalUnc] at h1
    split at h1
    · rename_i e; cases h1; exact e
    · cases h1
  refine ⟨u, d, ?_, ?_, h5⟩
  · rw [after_snoc']
    obtain ⟨l, hl⟩ := (after cs).step_env c
    simp only [Arg.evalUnc, Arg.eval] at h1 ⊢
    rw [hl]
    cases hg : (after cs).env[k]? with
    | none => rw [hg] at h1; simp at h1
    | some o =>
      rw [List.getElem?_append_left (List.getElem?_eq_some_iff.mp hg).1, hg]
      rw [hg] at h1
      exact h1
  · rw [after_snoc']
    simp only [calculates, List.mem_cons, List.not_mem_nil, or_false] at hc
    have hstd : ∀ w1 r, (after cs).w.stdDev u = (w1, r) → w1.nodes[u.lin]? = some (.dict d) := by
      intro w1 r hr
      cases hvar : u.var with
      | none =>
        have e := affStdDev_nodes h3
        simp only [World.stdDev, hvar] at hr
        rw [hr] at e
        cases e
        exact h4
      | some v =>
        obtain ⟨cell, hc, hl, -⟩ := h2.2 v hvar
        have hn := (MShape.after cs).shape.vars v cell hc
        rw [hl] at hn
        have hd : d = [(v, 1)] := by
          simp only [World.derivatives, readDerivs, hn, Prod.mk.injEq, Except.ok.injEq] at h3
          exact h3.2.symm
        simp only [World.stdDev, hvar, hc, Prod.mk.injEq] at hr
        rw [hd, ← hr.1]; exact hn
    rcases hc with rfl | rfl | rfl | rfl | rfl
    · simpa only [Machine.step, Machine.read, h1, h3, mapRes, Except.map] using h4
    · have e := errorComponents_nodes h3
      simp only [Machine.step, Machine.read, h1]
      cases hr : (after cs).w.errorComponents u with
      | mk w1 r =>
        rw [hr] at e
        cases e
        cases r <;> simpa only [mapRes, Except.map] using h4
    · simp only [Machine.step, hx, World.stdDevOf]
      cases hr : (after cs).w.stdDev u with
      | mk w1 r => cases r <;> exact hstd w1 _ hr
    · have e := affStdDev_nodes h3
      simp only [Machine.step, Machine.read, h1]
      cases hr : (after cs).w.affStdDev u with
      | mk w1 r =>
        rw [hr] at e
        cases e
        cases r <;> simpa only [mapRes, Except.map] using h4
    · have e := stdScore_nodes (after cs).w u value
      simp only [Machine.step, Machine.read, h1]
      cases hr : (after cs).w.stdDev u with
      | mk w0 r0 =>
        have h6 := hstd w0 r0 hr
        rw [hr] at e
        cases hr : (after cs).w.stdScore u value with
        | mk w1 r =>
          rw [hr] at e
          cases e
          cases r <;> simpa only [mapRes, Except.map] using h6

theorem dict_seen {cs : List (Cmd F)} {x : Arg F} {u : UF F} {d : Derivs F} (hu : x.evalUnc (after cs).env = some u)
    (hd : (after cs).w.nodes[u.lin]? = some (.dict d)) : sees cs (.derivatives x) = .dict (fun v => d.lookup v) := by
  simp only [sees, Machine.step, Machine.read, hu, World.derivatives, readDerivs, hd, mapRes, Except.map]

/-- **C88**. Derivatives that were read are final, in any float arithmetic: if `x.derivatives` is `D` and `x.derivatives`,
`x.error_components()`, `x.std_dev`, `x.s` or `x.std_score(value)` is read, then `x.derivatives` is `D` forever, whatever the program does (`cs'`:
calculations, changes of standard deviations, copies, reads of other numbers...). -/
theorem C88_final (cs : List (Cmd F)) (k : Nat) (D : VarId → Option F) (h : sees cs (.derivatives (.ref k)) = .dict D)
    (c : Cmd F) (value : F) (hc : c ∈ calculates k value) (cs' : List (Cmd F)) :
    sees (cs ++ c :: cs') (.derivatives (.ref k)) = .dict D := by
  obtain ⟨u, d, h1, h2, h3⟩ := calculated hc h
  obtain ⟨k1, k2⟩ := dict_stays h1 h2 cs'
  rw [show cs ++ c :: cs' = cs ++ [c] ++ cs' by simp, dict_seen k1 k2]
  congr 1
  funext v
  exact h3 v

/-- **C88**: the derivatives of a variable are final too. -/
theorem C88_variables (cs : List (Cmd F)) (k : Nat) (t : Option String) (ht : sees cs (.tag (.ref k)) = .tag t)
    (cs' : List (Cmd F)) : ∃ v, ∀ cs₁, cs₁ <+: cs' →
      sees (cs ++ cs₁) (.derivatives (.ref k)) = .dict (fun u => if u = v then some 1 else none) := by
  have hm := MShape.after cs
  cases hu : (Arg.ref k : Arg F).evalUnc (after cs).env with
  | none => simp [sees, Machine.step, Machine.read, hu, Machine.invalid] at ht
  | some u =>
    cases hv : u.var with
    | none => simp [sees, Machine.step, Machine.read, hu, World.tag, hv, mapRes, Except.map] at ht
    | some v =>
      obtain ⟨cell, hc, hl, -⟩ := (hm.evalUnc hu).2 v hv
      have hn := hm.shape.vars v cell hc
      rw [hl] at hn
      refine ⟨v, fun cs₁ _ => ?_⟩
      obtain ⟨k1, k2⟩ := dict_stays hu hn cs₁
      rw [dict_seen k1 k2]
      congr 1
      funext u
      by_cases e : u = v
      · subst e; simp
      · simp [lookup_cons, e]

end any

section rounded
variable {F : Type} [PyMath F] [Halts F] [Rounded F]

theorem Known.readOnce {cs : List (Cmd F)} {x : Arg F} {D : VarId → Option F} (h : Known cs x D) :
    ∃ a, x.eval (after cs).env = some a ∧ ReadOnce (after cs).w a D ∧ (∀ k, x = .ref k → a.isUnc = true) := by
  have nodup : ∀ (i : NodeId) (d : Derivs F), (after cs).w.nodes[i]? = some (.dict d) → KeysNodup d := by
    intro i d hi
    obtain ⟨g, s, hg, -⟩ := RRel.afterAll cs
    exact (hg.inv.den.cell i _ hi).1
  have unc : ∀ {x : Arg F} {u : UF F}, x.evalUnc (after cs).env = some u → x.eval (after cs).env = some (.unc u) := by
    intro x u h1
    simp only [Arg.evalUnc] at h1
    split at h1
    · rename_i e; cases h1; exact e
    · cases h1
  cases h with
  | number a => exact ⟨.plain (.flt a), rfl, fun v => rfl, by simp⟩
  | «variable» k t D ht hD =>
    obtain ⟨v, hv⟩ := C88_variables cs k t ht []
    have hm := MShape.after cs
    cases hu : (Arg.ref k : Arg F).evalUnc (after cs).env with
    | none => simp [sees, Machine.step, Machine.read, hu, Machine.invalid] at ht
    | some u =>
      cases hv : u.var with
      | none => simp [sees, Machine.step, Machine.read, hu, World.tag, hv, mapRes, Except.map] at ht
      | some v =>
        obtain ⟨cell, hc, hl, -⟩ := (hm.evalUnc hu).2 v hv
        have hn := hm.shape.vars v cell hc
        rw [hl] at hn
        refine ⟨.unc u, unc hu, ⟨_, hn, nodup _ _ hn, fun v => ?_⟩, fun _ _ => rfl⟩
        rw [dict_seen hu hn] at hD
        simp only [Out.dict.injEq] at hD
        exact congrFun hD v
  | read cs₁ c cs₂ k value D h hc hD =>
    obtain ⟨u, d, h1, h2, h3⟩ := calculated hc hD
    obtain ⟨k1, k2⟩ := dict_stays h1 h2 cs₂
    rw [show cs₁ ++ [c] ++ cs₂ = cs by simp [h]] at k1 k2
    exact ⟨.unc u, unc k1, ⟨d, k2, nodup _ _ k2, h3⟩, fun _ _ => rfl⟩

theorem evalArgs_known {cs : List (Cmd F)} {args : List (Arg F)} {Ds : List (VarId → Option F)}
    (h : List.Forall₂ (Known cs) args Ds) : ∃ as, evalArgs (Arg.eval (after cs).env) args = some as ∧
      List.Forall₂ (ReadOnce (after cs).w) as Ds ∧ List.Forall₂ (fun x a => ∀ k, x = Arg.ref k → a.isUnc = true) args as ∧
      List.Forall₂ (fun (x : Arg F) (a : Val F) => ∀ u, a = .unc u → ∃ k, x = Arg.ref k) args as := by
  induction h with
  | nil => exact ⟨[], rfl, .nil, .nil, .nil⟩
  | @cons x D args Ds hx _ ih =>
    obtain ⟨as, h1, h2, h3, h4⟩ := ih
    obtain ⟨a, k1, k2, k3⟩ := hx.readOnce
    refine ⟨a :: as, by simp only [evalArgs, k1, h1], .cons k2 h2, .cons k3 h3, .cons ?_ h4⟩
    intro u hu
    cases x with
    | ref k => exact ⟨k, rfl⟩
    | const v => cases k1; cases hu

theorem seen_result {cs : List (Cmd F)} {c : Cmd F} {w' : World F} {u : UF F}
    (h : (after cs).step c = (⟨w', (after cs).env ++ [some (.unc u)]⟩, .done)) :
    sees cs c = .done ∧ sees (cs ++ [c]) (.nominal (next cs)) = .val (.flt u.nom) ∧
    ∀ w'' d, w'.derivatives u = (w'', .ok d) →
      sees (cs ++ [c]) (.derivatives (next cs)) = .dict (fun v => d.lookup v) := by
  have hg : ((after cs).env ++ [some (Val.unc u)])[(after cs).env.length]? = some (some (.unc u)) := by simp
  have ha : after (cs ++ [c]) = ⟨w', (after cs).env ++ [some (.unc u)]⟩ := by rw [after_snoc', h]
  refine ⟨by simp only [sees, h], ?_, fun w'' d hd => ?_⟩
  · simp only [sees, ha, next, Machine.step, Arg.eval, hg, Option.join, Option.bind, id, Val.nominal]
  · simp only [sees, ha, next, Machine.step, Machine.read, Arg.evalUnc, Arg.eval, hg, Option.join, Option.bind, id, hd, mapRes,
      Except.map]

/-- **C88**: a wrapped function called with operands whose derivatives are known (numbers, variables, and results that were read)
gives a result whose derivatives are calculated by the chain rule, with floats. `c i` is the derivative of the function with
respect to argument number `i` (given by the user, or numerical), at the nominal values `av`. -/
theorem C88_call (cs : List (Cmd F)) (f : Nat) (df : WrapDef F) (hf : (fnsOf cs)[f]? = some df)
    (args : List (Arg F)) (Ds : List (VarId → Option F)) (hk : List.Forall₂ (Known cs) args Ds) (k : Nat)
    (hu : Arg.ref k ∈ args) (av : List (PyVal F)) (hn : Nominals cs args av) (z : F) (hz : df.f av [] = .ok (.flt z))
    (c : Nat → F) (hc : ∀ i k, args[i]? = some (.ref k) → df.specPos i av [] = .ok (c i)) :
    sees cs (.call f args []) = .done ∧
    sees (cs ++ [.call f args []]) (.nominal (next cs)) = .val (.flt z) ∧
    sees (cs ++ [.call f args []]) (.derivatives (next cs)) = .dict (chainRule c 0 Ds) := by
  obtain ⟨as, h1, h2, h3, h4⟩ := evalArgs_known hk
  obtain ⟨as', h1', hav⟩ := hn.eval
  rw [h1] at h1'
  cases h1'
  obtain ⟨hlt, hdf⟩ := fns_get hf
  have hm := MShape.after cs
  have hunc : ∃ u, Val.unc u ∈ as := by
    obtain ⟨i, hi⟩ := List.getElem?_of_mem hu
    obtain ⟨hil, -⟩ := List.getElem?_eq_some_iff.mp hi
    have hl := h3.length_eq
    have ha : as[i]? = some as[i] := List.getElem?_eq_getElem (by omega)
    have := (List.forall₂_iff_get.mp h3).2 i hil (by omega) k (by
      have := (List.getElem?_eq_some_iff.mp hi).2; simpa using this)
    cases e : as[i] with
    | plain p => simp [e, Val.isUnc] at this
    | unc u => exact ⟨u, e ▸ List.getElem_mem _⟩
  obtain ⟨w', u, w'', d, k1, k2, k3, k4, k5, k6, k7⟩ := World.call_read hm.shape hdf h2 hunc (by rw [hav]; exact hz) (c := c) (by
    intro i u hi
    rw [hav]
    have hl := h4.length_eq
    obtain ⟨hil, e⟩ := List.getElem?_eq_some_iff.mp hi
    obtain ⟨k, hk⟩ := (List.forall₂_iff_get.mp h4).2 i (by omega) hil u (by simpa using e)
    refine hc i k ?_
    rw [List.getElem?_eq_getElem (by omega)]
    simpa using hk)
  have hstep : (after cs).step (.call f args []) = (⟨w', (after cs).env ++ [some (.unc u)]⟩, .done) := by
    simp only [Machine.step, hlt, if_true, h1, evalArgs, k1, Machine.bind]
  obtain ⟨r1, r2, r3⟩ := seen_result hstep
  refine ⟨r1, by rw [r2, k2], ?_⟩
  rw [r3 _ _ k5]
  congr 1
  funext v
  exact k7 v

/-- **C88** for an operation between two numbers with uncertainties whose derivatives are known: in the derivatives of the result,
the term of the second operand is added to 0, then the term of the first one. -/
theorem C88_binop (cs : List (Cmd F)) (op : BinOp) (i j : Nat) (D D' : VarId → Option F) (hi : Known cs (.ref i) D)
    (hj : Known cs (.ref j) D') (x y z a b : F) (hx : sees cs (.nominal (.ref i)) = .val (.flt x))
    (hy : sees cs (.nominal (.ref j)) = .val (.flt y)) (hz : op.onFloats x y = .ok (.flt z))
    (ha : op.deriv0 x y = .ok a) (hb : op.deriv1 x y = .ok b) :
    sees cs (.binop op (.ref i) (.ref j)) = .done ∧
    sees (cs ++ [.binop op (.ref i) (.ref j)]) (.nominal (next cs)) = .val (.flt z) ∧
    sees (cs ++ [.binop op (.ref i) (.ref j)]) (.derivatives (next cs)) = .dict (chainRule2 a b D D') := by
  obtain ⟨p, p1, p2, p3⟩ := hi.readOnce
  obtain ⟨q, q1, q2, q3⟩ := hj.readOnce
  obtain ⟨p', e, np⟩ := sees_nominal hx
  rw [p1] at e; cases e
  obtain ⟨q', e, nq⟩ := sees_nominal hy
  rw [q1] at e; cases e
  have p3 := p3 i rfl
  have q3 := q3 j rfl
  cases p with
  | plain c => cases p3
  | unc p =>
    cases q with
    | plain c => cases q3
    | unc q =>
      have hm := MShape.after cs
      have hp : plainBinop op (.flt x) (.flt y) = .ok (.flt z) := by
        rw [← BinOp.func_floats op x y]
        cases op <;> simp only [BinOp.func, noComplexResult, BinOp.method] <;> rw [hz]
      obtain ⟨w', u, w'', d, k1, k2, k3, k4, k5, k6, k7⟩ := World.call_read hm.shape (hm.ops.binop op)
        (.cons p2 (.cons q2 .nil)) ⟨p, by simp⟩ (z := z) (by
          simp only [List.map_cons, List.map_nil, np, nq]
          exact (BinOp.func_floats op x y).trans hp) (c := fun n => if n = 0 then a else b) (by
          intro n u hn
          simp only [List.map_cons, List.map_nil, np, nq]
          match n, hn with
          | 0, _ => exact ha
          | 1, _ => exact hb
          | n + 2, hn => simp at hn)
      have hstep : (after cs).step (.binop op (.ref i) (.ref j)) = (⟨w', (after cs).env ++ [some (.unc u)]⟩, .done) := by
        simp only [Machine.step, p1, q1, Val.isUnc, Bool.or_self, if_true, World.binop, k1, Machine.bind]
      obtain ⟨r1, r2, r3⟩ := seen_result hstep
      refine ⟨r1, by rw [r2, k2], ?_⟩
      rw [r3 _ _ k5]
      congr 1
      funext v
      rw [k7 v]
      simp only [chainRule, chainRule2]
      cases D v <;> cases D' v <;> rfl

/-- **C88** for sums, differences and products. -/
theorem C88_sum_product (cs : List (Cmd F)) (i j : Nat) (D D' : VarId → Option F) (hi : Known cs (.ref i) D)
    (hj : Known cs (.ref j) D') (x y : F) (hx : sees cs (.nominal (.ref i)) = .val (.flt x))
    (hy : sees cs (.nominal (.ref j)) = .val (.flt y)) :
    sees (cs ++ [.binop .add (.ref i) (.ref j)]) (.derivatives (next cs)) = .dict (chainRule2 1 1 D D') ∧
    sees (cs ++ [.binop .sub (.ref i) (.ref j)]) (.derivatives (next cs)) = .dict (chainRule2 1 (-1) D D') ∧
    sees (cs ++ [.binop .mul (.ref i) (.ref j)]) (.derivatives (next cs)) = .dict (chainRule2 y x D D') :=
  ⟨(C88_binop cs .add i j D D' hi hj x y (x + y) 1 1 hx hy rfl rfl rfl).2.2,
   (C88_binop cs .sub i j D D' hi hj x y (x - y) 1 (-1) hx hy rfl rfl rfl).2.2,
   (C88_binop cs .mul i j D D' hi hj x y (x * y) y x hx hy rfl rfl rfl).2.2⟩

end rounded

/-! ### The hypotheses are met -/

set_option maxRecDepth 100000 in
/-- `v = ufloat(1, 1)`: its derivatives are known. -/
theorem exC88_known : Known [.ufloat (1 : B64) 1 none] (.ref 0) (fun v => [(0, 1)].lookup v) := .variable 0 none _ rfl rfl

set_option maxRecDepth 100000 in
/-- `x = v + v`, `x.derivatives`, then `v.std_dev = 0`, `copy(x)` and `x*x`: the derivatives of `x` are still the same. -/
example : sees ([.ufloat (1 : B64) 1 none, .binop .add (.ref 0) (.ref 0)] ++
      .derivatives (.ref 1) :: [.setStd (.ref 0) 0, .copy (.ref 1), .binop .mul (.ref 1) (.ref 1)]) (.derivatives (.ref 1)) =
    .dict (chainRule2 1 1 (fun v => [(0, 1)].lookup v) (fun v => [(0, 1)].lookup v)) :=
  C88_final _ 1 _ (C88_sum_product [.ufloat (1 : B64) 1 none] 0 0 _ _ exC88_known exC88_known 1 1 rfl rfl).1 _ 0 (by simp [calculates]) _

set_option maxRecDepth 100000 in
/-- A call of the function `+`, with `v` and 1. -/
example : sees ([.ufloat (1 : B64) 1 none] ++ [.call BinOp.add.id [.ref 0, .const (.flt 1)] []])
      (.derivatives (next [.ufloat (1 : B64) 1 none])) =
    .dict (chainRule (fun _ => 1) 0 [fun v => [(0, 1)].lookup v, fun _ => none]) :=
  (C88_call [.ufloat (1 : B64) 1 none] BinOp.add.id BinOp.add.wrapDef rfl [.ref 0, .const (.flt 1)] _
    (.cons exC88_known (.cons (.number 1) .nil)) 0 (by simp) [.flt 1, .flt 1] ⟨rfl, rfl, trivial⟩ (1 + 1) rfl (fun _ => 1) (by
      intro i k hi
      match i, hi with
      | 0, _ => rfl
      | 1, hi => cases hi
      | i + 2, hi => simp at hi)).2.2

end Unc
