import Verif.Lemmas.Cov
import Verif.Lemmas.SetStd
import Verif.Py.B64
import Verif.Spec.Observe
import Verif.Spec.World

/-
C05 to C09 with floating-point arithmetic: what is read on a quantity is calculated from its derivatives
and from the current standard deviations of its variables, and nothing else.
-/

namespace Unc

set_option autoImplicit false

/-- `sqrt(sum(e**2 for e in es))`, calculated from left to right. -/
def quadrature {F : Type} [PyFloat F] (es : List F) : PyRes F := do
  let t ← es.foldlM (fun t e => do let e2 ← PyFloat.sq e; pure (t + e2)) (0 : F)
  PyFloat.sqrt t

/-- A result, as a program sees it. -/
def seenRes {F : Type} : PyRes F → Out F
  | .ok y => .val (.flt y)
  | .error e => .err e

theorem sumSquares_foldlM {F : Type} [PyFloat F] (l : List F) (acc : F) :
    sumSquares l acc = l.foldlM (fun t e => do let e2 ← PyFloat.sq e; pure (t + e2)) acc := by
  induction l generalizing acc with
  | nil => rfl
  | cons x l ih =>
    simp only [sumSquares, List.foldlM_cons]
    cases PyFloat.sq x with
    | error e => rfl
    | ok y => exact ih _

section any
variable {F : Type} [PyMath F] [Halts F]

theorem evalUnc_eval_floats {env : List (Option (Val F))} {x : Arg F} {u : UF F} (h : x.evalUnc env = some u) :
    x.eval env = some (.unc u) := by
  simp only [Arg.evalUnc] at h
  split at h
  · rename_i h1; cases h; exact h1
  · cases h

/-- Quantities, in terms of the state. -/
theorem Quantity.state {cs : List (Cmd F)} {x : Arg F} {n : F} {D : VarId → Option F} {σ : VarId → F}
    (h : Quantity cs x n D σ) : ∃ u w' d, x.evalUnc (after cs).env = some u ∧ u.Valid (after cs).w ∧
      (after cs).w.derivatives u = (w', .ok d) ∧ Reads (after cs).w w' ∧ (∀ v, d.lookup v = D v) ∧
      (∀ v ∈ d.map Prod.fst, v < (after cs).w.vars.length) ∧
      ∀ v, D v ≠ none → ∃ cell, (after cs).w.vars[v]? = some cell ∧ cell.std = σ v := by
  have hm := MShape.after cs
  have hd := h.derivatives
  cases hu : x.evalUnc (after cs).env with
  | none => simp [sees, Machine.step, Machine.read, hu, Machine.invalid] at hd
  | some u =>
    have hv := hm.evalUnc hu
    obtain ⟨w', d, h1, h2, h3⟩ := World.derivatives_shape hm.shape hv
    simp only [sees, Machine.step, Machine.read, hu, h1, mapRes, Except.map, Out.dict.injEq] at hd
    refine ⟨u, w', d, rfl, hv, h1, h2, fun v => congrFun hd v, h3, fun v hD => ?_⟩
    rw [← hd] at hD
    obtain ⟨a, ha⟩ := Option.ne_none_iff_exists'.mp hD
    simp only at ha
    have hlt := h3 v (mem_keys_of_lookup ha)
    have hc : (after cs).w.vars[v]? = some (after cs).w.vars[v] := List.getElem?_eq_getElem hlt
    have hw : w'.vars[v]? = some (after cs).w.vars[v] := by rw [h2.vars]; exact hc
    refine ⟨_, hc, ?_⟩
    have hs := h.std v (by rw [← hd]; exact hD)
    simp only [seesKeyStd, sees, after_snoc', Machine.step, hu, World.variable, h1, ha, hw, next, Arg.eval,
      List.getElem?_append_right (Nat.le_refl _), Nat.sub_self, List.getElem?_cons_zero, Option.join, Option.bind,
      World.stdDevOf, World.stdDev, id] at hs
    simpa using hs

/-- The other theorems apply to all numbers with uncertainties: the derivatives of a number with uncertainty can
always be read, and so can its nominal value and the standard deviations of its variables. -/
theorem C05_quantities_floats (cs : List (Cmd F)) (x : Arg F) (h : sees cs (.derivatives x) ≠ .invalid) :
    ∃ n D σ, Quantity cs x n D σ := by
  have hm := MShape.after cs
  cases hu : x.evalUnc (after cs).env with
  | none => exact absurd (by simp [sees, Machine.step, Machine.read, hu, Machine.invalid]) h
  | some u =>
    obtain ⟨w', d, h1, h2, h3⟩ := World.derivatives_shape hm.shape (hm.evalUnc hu)
    refine ⟨u.nom, fun v => d.lookup v, fun v => (((after cs).w.vars[v]?).map VarCell.std).getD 0, ?_, ?_, ?_⟩
    · simp only [sees, Machine.step, evalUnc_eval_floats hu, Val.nominal]
    · simp only [sees, Machine.step, Machine.read, hu, h1, mapRes, Except.map]
    · intro v hv
      obtain ⟨a, ha⟩ := Option.ne_none_iff_exists'.mp hv
      have hlt := h3 v (mem_keys_of_lookup ha)
      have hc : (after cs).w.vars[v]? = some (after cs).w.vars[v] := List.getElem?_eq_getElem hlt
      have hw : w'.vars[v]? = some (after cs).w.vars[v] := by rw [h2.vars]; exact hc
      simp only [seesKeyStd, sees, after_snoc', Machine.step, hu, World.variable, h1, ha, hw, next, Arg.eval,
        List.getElem?_append_right (Nat.le_refl _), Nat.sub_self, List.getElem?_cons_zero, Option.join, Option.bind,
        World.stdDevOf, World.stdDev, id, hc]
      simp

/-- **C09**, for any float arithmetic: after any history, the standard deviation of a variable (an object
with a tag) is not negative, unless it is infinite. -/
theorem C09_variables_partial (cs : List (Cmd F)) (x : Arg F) (t : Option String) (s : F)
    (ht : sees cs (.tag x) = .tag t) (hs : sees cs (.stdDev x) = .val (.flt s)) (hneg : PyFloat.ltb s 0 = true) :
    PyFloat.isInf s = true := by
  have hm := MShape.after cs
  cases hu : x.evalUnc (after cs).env with
  | none => simp [sees, Machine.step, Machine.read, hu, Machine.invalid] at ht
  | some u =>
    have hx := evalUnc_eval_floats hu
    cases hv : u.var with
    | none => simp [sees, Machine.step, Machine.read, hu, World.tag, hv, mapRes, Except.map] at ht
    | some v =>
      obtain ⟨cell, hc, -⟩ := (hm.evalUnc hu).2 v hv
      simp only [sees, Machine.step, hx, World.stdDevOf, World.stdDev, hv, hc, Out.val.injEq, PyVal.flt.injEq] at hs
      subst hs
      have := hm.shape.std v cell hc
      simp only [specBadStd, hneg, Bool.true_and] at this
      simpa using this

/-- **C08**, for any float arithmetic: after `x.std_dev = std` (which succeeds only if `x` is a variable),
for all objects: nominal values and derivatives are unchanged; `x.std_dev` is `std`; standard deviation, error
components and standard scores are unchanged (bit for bit, or with the same exception) for the objects that
do not depend on `x`. -/
theorem C08_floats (cs : List (Cmd F)) (x : Arg F) (std : F) (hdone : sees cs (.setStd x std) = .done) :
    ∃ v : VarId, sees cs (.derivatives x) = .dict (fun k => if k = v then some 1 else none) ∧
      let cs' := cs ++ [.setStd x std]
      sees cs' (.stdDev x) = .val (.flt std) ∧
      (∀ y, sees cs' (.nominal y) = sees cs (.nominal y)) ∧
      (∀ y, sees cs' (.derivatives y) = sees cs (.derivatives y)) ∧
      ∀ y D, sees cs (.derivatives y) = .dict D → D v = none →
        sees cs' (.stdDev y) = sees cs (.stdDev y) ∧
        sees cs' (.s y) = sees cs (.s y) ∧
        sees cs' (.errorComponents y) = sees cs (.errorComponents y) ∧
        ∀ a, sees cs' (.stdScore y a) = sees cs (.stdScore y a) := by
  have hm := MShape.after cs
  cases hu : x.evalUnc (after cs).env with
  | none => simp [sees, Machine.step, Machine.read, hu, Machine.invalid] at hdone
  | some u =>
    have hval := hm.evalUnc hu
    cases hv : u.var with
    | none => simp [sees, Machine.step, Machine.read, hu, World.assignStd, hv, mapRes, Except.map] at hdone
    | some v =>
      obtain ⟨cell, hc, -, -⟩ := hval.2 v hv
      have hstep : after (cs ++ [.setStd x std]) =
          ⟨(after cs).w.withV ((after cs).w.vars.set v { cell with std := std }), (after cs).env⟩ := by
        rw [after_snoc']
        simp only [sees, Machine.step, Machine.read, hu, World.assignStd, hv, World.setStd, hc] at hdone ⊢
        cases hb : (PyFloat.ltb std 0 && !PyFloat.isInf std) with
        | true => simp [hb, mapRes, Except.map] at hdone
        | false => simp [mapRes, Except.map, World.withV]
      have hlt : v < (after cs).w.vars.length := (List.getElem?_eq_some_iff.mp hc).1
      have hV : ∀ k, k ≠ v → (((after cs).w.vars.set v { cell with std := std })[k]?).map VarCell.std =
          ((after cs).w.vars[k]?).map VarCell.std := by
        intro k hk
        rw [List.getElem?_set_ne (Ne.symm hk)]
      refine ⟨v, ?_, ?_, ?_, ?_, ?_⟩
      · simp only [sees, Machine.step, Machine.read, hu, World.derivatives_var hm.shape hval hv, mapRes, Except.map,
          Out.dict.injEq]
        funext k
        by_cases hk : k = v
        · subst hk; simp
        · simp [lookup_cons, hk]
      · simp only [sees, hstep, Machine.step, evalUnc_eval_floats hu, World.stdDevOf, World.stdDev, hv, World.withV,
          List.getElem?_set_self hlt]
      · intro y
        simp only [sees, hstep, Machine.step]
        split <;> rfl
      · intro y
        simp only [sees, hstep, Machine.step, Machine.read]
        cases y.evalUnc (after cs).env with
        | none => rfl
        | some uy =>
          simp only [World.derivatives_withV, mapRes]
          generalize ((after cs).w.derivatives uy).2 = r
          cases r <;> rfl
      · intro y D hD hDv
        cases hy : y.evalUnc (after cs).env with
        | none => simp [sees, Machine.step, Machine.read, hy, Machine.invalid] at hD
        | some uy =>
          have hvy := hm.evalUnc hy
          obtain ⟨w', d, h1, h2, h3⟩ := World.derivatives_shape hm.shape hvy
          simp only [sees, Machine.step, Machine.read, hy, h1, mapRes, Except.map, Out.dict.injEq] at hD
          subst hD
          have hkeys : ∀ k ∈ d.map Prod.fst, (((after cs).w.vars.set v { cell with std := std })[k]?).map VarCell.std =
              ((after cs).w.vars[k]?).map VarCell.std := by
            intro k hk
            refine hV k ?_
            rintro rfl
            exact absurd hk (fun hk => by
              obtain ⟨a, ha⟩ := lookup_of_key hk
              simp only [ha] at hDv
              cases hDv)
          have hvar : ∀ k, uy.var = some k → k ∈ d.map Prod.fst := by
            intro k hk
            have := World.derivatives_var hm.shape hvy hk
            rw [this] at h1
            cases h1
            simp
          refine ⟨?_, ?_, ?_, ?_⟩
          · simp only [sees, hstep, Machine.step, evalUnc_eval_floats hy, World.stdDevOf,
              World.stdDev_withV h1 h2.vars hkeys hvar]
            generalize (after cs).w.stdDev uy = r
            obtain ⟨r1, r2⟩ := r
            cases r2 <;> rfl
          · simp only [sees, hstep, Machine.step, Machine.read, hy, World.affStdDev_withV h1 h2.vars hkeys, mapRes]
            generalize (after cs).w.affStdDev uy = r
            obtain ⟨r1, r2⟩ := r
            cases r2 <;> rfl
          · simp only [sees, hstep, Machine.step, Machine.read, hy, World.errorComponents_withV h1 h2.vars hkeys, mapRes]
            generalize (after cs).w.errorComponents uy = r
            obtain ⟨r1, r2⟩ := r
            cases r2 <;> rfl
          · intro a
            simp only [sees, hstep, Machine.step, Machine.read, hy, World.stdScore_withV h1 h2.vars hkeys hvar, mapRes]
            generalize (after cs).w.stdScore uy a = r
            obtain ⟨r1, r2⟩ := r
            cases r2 <;> rfl

end any

section rounded
variable {F : Type} [PyMath F] [Halts F] [Rounded F]

/-- Quantities, in terms of the state: the dictionary of derivatives has each variable once. -/
theorem Quantity.nodup {cs : List (Cmd F)} {x : Arg F} {n : F} {D : VarId → Option F} {σ : VarId → F}
    (h : Quantity cs x n D σ) : ∃ u w' d, x.evalUnc (after cs).env = some u ∧ u.Valid (after cs).w ∧
      (after cs).w.derivatives u = (w', .ok d) ∧ Reads (after cs).w w' ∧ (∀ v, d.lookup v = D v) ∧ KeysNodup d ∧
      errorLoop (after cs).w.vars d = .ok (d.map (fun p => (p.1, specComponent p.2 (σ p.1)))) := by
  obtain ⟨u, w', d, h1, h2, h3, h4, h5, h6, h7⟩ := h.state
  obtain ⟨g, s, hg, -⟩ := RRel.afterAll cs
  obtain ⟨w1, d1, a1, -, a3, -⟩ := World.derivatives_rounded hg.inv h2
  rw [h3] at a1
  cases a1
  refine ⟨u, w', d, h1, h2, h3, h4, h5, a3, ?_⟩
  rw [errorLoop_rounded _ d h6]
  congr 1
  refine List.map_congr_left (fun p hp => ?_)
  obtain ⟨v, a⟩ := p
  obtain ⟨cell, hc, hσ⟩ := h7 v (by rw [← h5, lookup_of_mem_keys a3 hp]; simp)
  simp only [roundedComp, hc, specComponent, hσ]

theorem lookup_map_component {f : VarId → F → F} (d : Derivs F) (v : VarId) :
    (d.map (fun p => (p.1, f p.1 p.2))).lookup v = (d.lookup v).map (f v) := by
  induction d with
  | nil => rfl
  | cons p d ih =>
    obtain ⟨u, x⟩ := p
    simp only [List.map_cons, lookup_cons, ih]
    by_cases h : v = u
    · subst h; simp
    · simp [h]

/-- **C06**, for rounded floats: after any history, `error_components()` has one entry for each variable of
`derivatives`: 0 if the standard deviation of the variable is 0 (even if the derivative is NaN or infinite), and
the float `abs(derivative * std_dev)` otherwise. -/
theorem C06_error_components_floats {cs : List (Cmd F)} {x : Arg F} {n : F} {D : VarId → Option F} {σ : VarId → F}
    (hq : Quantity cs x n D σ) :
    sees cs (.errorComponents x) = .dict (fun v => (D v).map (fun d =>
      if PyFloat.eqb (σ v) 0 then 0 else PyFloat.abs (d * σ v))) := by
  obtain ⟨u, w', d, h1, h2, h3, h4, h5, h6, h7⟩ := hq.nodup
  simp only [sees, Machine.step, Machine.read, h1, World.errorComponents, h3, h4.vars, h7, mapRes, Except.map,
    Out.dict.injEq]
  funext v
  rw [lookup_map_component (f := fun v a => specComponent a (σ v)), h5]
  rfl

/-- **C05**, **C06**, for rounded floats: after any history, `x.s` is the square root of the sum of the squares of
the error components, each one taken once, in some order; it depends only on the derivatives and on the current
standard deviations of the variables. So is `std_dev(x)`, unless `x` is a variable (see C08). -/
theorem C05_std_dev_floats {cs : List (Cmd F)} {x : Arg F} {n : F} {D : VarId → Option F} {σ : VarId → F}
    (hq : Quantity cs x n D σ) :
    ∃ l : List VarId, l.Nodup ∧ (∀ v, v ∈ l ↔ D v ≠ none) ∧
      let es := l.filterMap (fun v => (D v).map (fun d => if PyFloat.eqb (σ v) 0 then 0 else PyFloat.abs (d * σ v)))
      sees cs (.s x) = seenRes (quadrature es) ∧
      ((∀ t, sees cs (.tag x) ≠ .tag t) → sees cs (.stdDev x) = seenRes (quadrature es)) := by
  obtain ⟨u, w', d, h1, h2, h3, h4, h5, h6, h7⟩ := hq.nodup
  have hes : (d.map Prod.fst).filterMap (fun v => (D v).map (fun d => if PyFloat.eqb (σ v) 0 then 0 else PyFloat.abs (d * σ v))) =
      d.map (fun p => specComponent p.2 (σ p.1)) := by
    rw [List.filterMap_map, ← List.filterMap_eq_map]
    refine List.filterMap_congr (fun p hp => ?_)
    obtain ⟨v, a⟩ := p
    simp only [Function.comp, ← h5, lookup_of_mem_keys h6 hp, Option.map_some]
    rfl
  have haff : (after cs).w.affStdDev u = (w', quadrature (d.map (fun p => specComponent p.2 (σ p.1)))) := by
    simp only [World.affStdDev, World.errorComponents, h3, h4.vars, h7, List.map_map, sumSquares_foldlM, quadrature]
    show _ = (w', Except.bind _ _)
    simp only [Function.comp_def]
    cases List.foldlM (m := Except PyErr) (fun t e => do let e2 ← PyFloat.sq e; pure (t + e2)) (0 : F)
      (d.map (fun p => specComponent p.2 (σ p.1))) <;> rfl
  refine ⟨d.map Prod.fst, h6, fun v => ⟨fun hv => ?_, fun hv => ?_⟩, ?_⟩
  · obtain ⟨p, hp, rfl⟩ := List.mem_map.mp hv
    rw [← h5, lookup_of_mem_keys h6 hp]; simp
  · obtain ⟨a, ha⟩ := Option.ne_none_iff_exists'.mp hv
    rw [← h5] at ha
    exact mem_keys_of_lookup ha
  · simp only [hes]
    refine ⟨?_, fun ht => ?_⟩
    · simp only [sees, Machine.step, Machine.read, h1, haff, mapRes]
      cases quadrature (d.map (fun p => specComponent p.2 (σ p.1))) <;> rfl
    · have hv : u.var = none := by
        cases hv : u.var with
        | none => rfl
        | some v =>
          obtain ⟨cell, hc, -⟩ := h2.2 v hv
          exact absurd (by simp only [sees, Machine.step, Machine.read, h1, World.tag, hv, hc, mapRes, Except.map]) (ht cell.tag)
      simp only [sees, Machine.step, evalUnc_eval_floats h1, World.stdDevOf, World.stdDev, hv, haff]
      cases quadrature (d.map (fun p => specComponent p.2 (σ p.1))) <;> rfl

/-- **C08**, for rounded floats, covariances: after `x.std_dev = std`, the covariances that involve a quantity
that does not depend on `x` are unchanged, bit for bit. -/
theorem C08_floats_covariances (cs : List (Cmd F)) (x : Arg F) (std : F) (hdone : sees cs (.setStd x std) = .done)
    {v : VarId} (hx : sees cs (.derivatives x) = .dict (fun k => if k = v then some 1 else none))
    {ys : List (Arg F)} {M M' : List (List F)} (hM : sees cs (.covarianceMatrix ys) = .matrix M)
    (hM' : sees (cs ++ [.setStd x std]) (.covarianceMatrix ys) = .matrix M') {i j : Nat} {yi yj : Arg F}
    {Di Dj : VarId → Option F} (hi : ys[i]? = some yi) (hj : ys[j]? = some yj)
    (hDi : sees cs (.derivatives yi) = .dict Di) (hDj : sees cs (.derivatives yj) = .dict Dj)
    (hor : Di v = none ∨ Dj v = none) : entry M' i j = entry M i j := by
  have hm := MShape.after cs
  obtain ⟨g, s, hg, -⟩ := RRel.afterAll cs
  have hgrad : ∀ (y : Arg F) (u : UF F) (D : VarId → Option F), y.evalUnc (after cs).env = some u →
      sees cs (.derivatives y) = .dict D → (D v = none ↔ g u.lin v = none) := by
    intro y u D hy hD
    obtain ⟨w1, d1, a1, -, -, a4, -⟩ := World.derivatives_rounded hg.inv (hm.evalUnc hy)
    simp only [sees, Machine.step, Machine.read, hy, a1, mapRes, Except.map, Out.dict.injEq] at hD
    subst hD
    exact (a4 v).none_iff
  cases hu : x.evalUnc (after cs).env with
  | none => simp [sees, Machine.step, Machine.read, hu, Machine.invalid] at hdone
  | some u =>
    have hval := hm.evalUnc hu
    cases hv : u.var with
    | none => simp [sees, Machine.step, Machine.read, hu, World.assignStd, hv, mapRes, Except.map] at hdone
    | some v' =>
      have hvv : v = v' := by
        simp only [sees, Machine.step, Machine.read, hu, World.derivatives_var hm.shape hval hv, mapRes, Except.map,
          Out.dict.injEq] at hx
        have := congrFun hx v
        by_contra hne
        simp [lookup_cons, hne] at this
      subst hvv
      obtain ⟨cell, hc, -, -⟩ := hval.2 v hv
      have hstep : after (cs ++ [.setStd x std]) =
          ⟨(after cs).w.withV ((after cs).w.vars.set v { cell with std := std }), (after cs).env⟩ := by
        rw [after_snoc']
        simp only [sees, Machine.step, Machine.read, hu, World.assignStd, hv, World.setStd, hc] at hdone ⊢
        cases hb : (PyFloat.ltb std 0 && !PyFloat.isInf std) with
        | true => simp [hb, mapRes, Except.map] at hdone
        | false => simp [mapRes, Except.map, World.withV]
      have hV : ∀ k, k ≠ v → (((after cs).w.vars.set v { cell with std := std })[k]?).map VarCell.std =
          ((after cs).w.vars[k]?).map VarCell.std := by
        intro k hk
        rw [List.getElem?_set_ne (Ne.symm hk)]
      simp only [sees, hstep, Machine.step] at hM hM'
      cases he : evalArgs (Arg.evalUnc (after cs).env) ys with
      | none => simp [he, Machine.invalid] at hM
      | some us =>
        simp only [he] at hM hM'
        have hus : ∀ u ∈ us, u.Valid (after cs).w := by
          intro u hu
          obtain ⟨_, _, e⟩ := evalArgs_mem he u hu
          exact hm.evalUnc e
        have hqi := evalArgs_getElem he i
        have hqj := evalArgs_getElem he j
        simp only [hi, hj, Option.bind_some] at hqi hqj
        cases hyi : yi.evalUnc (after cs).env with
        | none => simp [sees, Machine.step, Machine.read, hyi, Machine.invalid] at hDi
        | some ui =>
          cases hyj : yj.evalUnc (after cs).env with
          | none => simp [sees, Machine.step, Machine.read, hyj, Machine.invalid] at hDj
          | some uj =>
            rw [hyi] at hqi
            rw [hyj] at hqj
            generalize hr : (after cs).w.covarianceMatrix us = r at hM
            generalize hr' : ((after cs).w.withV ((after cs).w.vars.set v { cell with std := std })).covarianceMatrix us = r' at hM'
            obtain ⟨w1, r⟩ := r
            obtain ⟨w2, r'⟩ := r'
            cases r with
            | error e => cases hM
            | ok M1 =>
              cases r' with
              | error e => cases hM'
              | ok M2 =>
                cases hM
                cases hM'
                exact covarianceMatrix_withV us hg.inv hV hus hr hr' i j ui uj (by rw [hqi]) (by rw [hqj])
                  (hor.imp (hgrad yi ui Di hyi hDi).mp (hgrad yj uj Dj hyj hDj).mp)

/-- The standard deviation of a variable. -/
theorem Quantity.tag {cs : List (Cmd F)} {x : Arg F} {n : F} {D : VarId → Option F} {σ : VarId → F}
    (hq : Quantity cs x n D σ) {t : Option String} (ht : sees cs (.tag x) = .tag t) :
    ∃ v, D v = some 1 ∧ sees cs (.stdDev x) = .val (.flt (σ v)) := by
  obtain ⟨u, w', d, h1, h2, h3, h4, h5, h6, h7⟩ := hq.state
  cases hv : u.var with
  | none => simp [sees, Machine.step, Machine.read, h1, World.tag, hv, mapRes, Except.map] at ht
  | some v =>
    have := World.derivatives_var (MShape.after cs).shape h2 hv
    rw [this] at h3
    cases h3
    have hD : D v = some 1 := by rw [← h5]; simp
    obtain ⟨cell, hc, hσ⟩ := h7 v (by rw [hD]; simp)
    refine ⟨v, hD, ?_⟩
    simp only [sees, Machine.step, evalUnc_eval_floats h1, World.stdDevOf, World.stdDev, hv, hc, hσ]

end rounded

/-! ### Doubles -/

theorem tag_cases {F : Type} [PyMath F] (cs : List (Cmd F)) (x : Arg F) :
    (∃ t, sees cs (.tag x) = .tag t) ∨ ∀ t, sees cs (.tag x) ≠ .tag t := by
  by_cases h : ∃ t, sees cs (.tag x) = .tag t
  · exact .inl h
  · exact .inr (fun t ht => h ⟨t, ht⟩)

attribute [local irreducible] B64.mul B64.rndSqrt

theorem B64.checked_cases (z : B64) : (∃ y, B64.checked z = .ok y) ∨ B64.checked z = .error .overflowError := by
  cases z with
  | inf b => exact .inr rfl
  | nan => exact .inl ⟨_, rfl⟩
  | fin m => exact .inl ⟨_, rfl⟩

theorem B64.round_zero' (d : ℕ) : B64.round 0 d = .fin 0 := by
  have e : B64.rndInt 0 d = 0 := by simp [B64.rndInt]
  unfold B64.round
  rw [e, if_pos]
  exact Nat.pow_pos (by decide)

theorem B64.sq_zero : PyFloat.sq (0 : B64) = .ok 0 := by
  have e : PyFloat.sq (0 : B64) = B64.checked (B64.mul (.fin 0) (.fin 0)) := rfl
  have h : B64.mul (.fin 0) (.fin 0) = .fin 0 := by
    have := B64.round_zero' (2 ^ 1074)
    simpa only [B64.mul, Int.mul_zero] using this
  rw [e, h]
  rfl

theorem B64.nan_mul (x : B64) : B64.nan * x = .nan := by
  show B64.mul .nan x = .nan
  unfold B64.mul
  rfl

theorem quadrature_zero (es : List B64) (h : ∀ e ∈ es, e = 0) : quadrature es = .ok 0 := by
  have key : List.foldlM (m := Except PyErr) (fun t e => do let e2 ← PyFloat.sq e; pure (t + e2)) (0 : B64) es = .ok 0 := by
    induction es with
    | nil => rfl
    | cons e es ih =>
      rw [h e (by simp)]
      have : List.foldlM (m := Except PyErr) (fun t e => do let e2 ← PyFloat.sq e; pure (t + e2)) (0 : B64) (0 :: es) =
        List.foldlM (m := Except PyErr) (fun t e => do let e2 ← PyFloat.sq e; pure (t + e2)) (0 : B64) es := by
        simp only [List.foldlM_cons, B64.sq_zero]; rfl
      rw [this]
      exact ih (fun e he => h e (by simp [he]))
  unfold quadrature
  rw [key]
  rfl

/-- **C07**, in double precision: if all the variables of a quantity are exact (standard deviation 0), its
standard deviation is 0, even with NaN or infinite derivatives. -/
theorem C07_exact_doubles {cs : List (Cmd B64)} {x : Arg B64} {n : B64} {D : VarId → Option B64}
    (hq : Quantity cs x n D (fun _ => 0)) :
    sees cs (.stdDev x) = .val (.flt 0) ∧ sees cs (.s x) = .val (.flt 0) := by
  obtain ⟨l, -, -, h1, h2⟩ := C05_std_dev_floats hq
  have hz : quadrature (l.filterMap (fun v => (D v).map (fun d => if PyFloat.eqb (0 : B64) 0 then (0 : B64) else PyFloat.abs (d * 0)))) =
      .ok 0 := by
    refine quadrature_zero _ (fun e he => ?_)
    obtain ⟨v, -, hv⟩ := List.mem_filterMap.mp he
    obtain ⟨d, -, rfl⟩ := Option.map_eq_some_iff.mp hv
    rfl
  rw [hz] at h1 h2
  refine ⟨?_, h1⟩
  rcases tag_cases cs x with ⟨t, ht⟩ | ht
  · obtain ⟨v, -, hs⟩ := hq.tag ht
    exact hs
  · exact h2 ht

theorem foldSquares_nan (es : List B64) (acc : B64) (h : acc = .nan ∨ B64.nan ∈ es) :
    List.foldlM (m := Except PyErr) (fun t e => do let e2 ← PyFloat.sq e; pure (t + e2)) acc es = .ok .nan ∨
    List.foldlM (m := Except PyErr) (fun t e => do let e2 ← PyFloat.sq e; pure (t + e2)) acc es = .error .overflowError := by
  induction es generalizing acc with
  | nil =>
    rcases h with rfl | h
    · exact .inl rfl
    · simp at h
  | cons e es ih =>
    have hsq : (∃ y, PyFloat.sq e = .ok y ∧ (e = .nan → y = .nan)) ∨ PyFloat.sq e = .error .overflowError := by
      cases e with
      | nan => exact .inl ⟨.nan, rfl, fun _ => rfl⟩
      | inf b => exact .inl ⟨_, rfl, fun h => by cases h⟩
      | fin m =>
        have e : PyFloat.sq (B64.fin m) = B64.checked (B64.mul (.fin m) (.fin m)) := rfl
        rw [e]
        rcases B64.checked_cases (B64.mul (.fin m) (.fin m)) with ⟨y, hy⟩ | hy
        · exact .inl ⟨y, hy, fun h => by cases h⟩
        · exact .inr hy
    rcases hsq with ⟨y, hy, hn⟩ | hy
    · have : List.foldlM (m := Except PyErr) (fun t e => do let e2 ← PyFloat.sq e; pure (t + e2)) acc (e :: es) =
          List.foldlM (m := Except PyErr) (fun t e => do let e2 ← PyFloat.sq e; pure (t + e2)) (acc + y) es := by
        simp only [List.foldlM_cons, hy]; rfl
      rw [this]
      refine ih _ ?_
      rcases h with rfl | h
      · exact .inl rfl
      · rcases List.mem_cons.mp h with h | h
        · rw [hn h.symm]
          refine .inl ?_
          cases acc <;> rfl
        · exact .inr h
    · refine .inr ?_
      simp only [List.foldlM_cons, hy]; rfl

/-- **C07**, in double precision: a NaN derivative with respect to a variable which is not exact makes the
standard deviation NaN (or `OverflowError` is raised, because of the square of another error component). -/
theorem C07_undefined_doubles {cs : List (Cmd B64)} {x : Arg B64} {n : B64} {D : VarId → Option B64} {σ : VarId → B64}
    (hq : Quantity cs x n D σ) {v : VarId} (hv : D v = some .nan) (hσ : PyFloat.eqb (σ v) 0 = false) :
    (sees cs (.stdDev x) = .val (.flt .nan) ∨ sees cs (.stdDev x) = .err .overflowError) ∧
    (sees cs (.s x) = .val (.flt .nan) ∨ sees cs (.s x) = .err .overflowError) := by
  obtain ⟨l, -, hl, h1, h2⟩ := C05_std_dev_floats hq
  have hmem : B64.nan ∈ l.filterMap (fun v => (D v).map (fun d => if PyFloat.eqb (σ v) 0 then (0 : B64) else PyFloat.abs (d * σ v))) := by
    refine List.mem_filterMap.mpr ⟨v, (hl v).mpr (by simp [hv]), ?_⟩
    simp only [hv, Option.map_some, hσ, Bool.false_eq_true, if_false]
    rw [B64.nan_mul]; rfl
  have hr : seenRes (quadrature (l.filterMap (fun v => (D v).map (fun d =>
      if PyFloat.eqb (σ v) 0 then (0 : B64) else PyFloat.abs (d * σ v))))) = .val (.flt .nan) ∨
      seenRes (quadrature (l.filterMap (fun v => (D v).map (fun d =>
      if PyFloat.eqb (σ v) 0 then (0 : B64) else PyFloat.abs (d * σ v))))) = .err .overflowError := by
    unfold quadrature
    rcases foldSquares_nan _ 0 (.inr hmem) with h | h <;> rw [h]
    · exact .inl rfl
    · exact .inr rfl
  refine ⟨?_, by rw [h1]; exact hr⟩
  rcases tag_cases cs x with ⟨t, ht⟩ | ht
  · exfalso
    obtain ⟨u, w', d, a1, a2, a3, a4, a5, a6, a7⟩ := hq.state
    cases hu : u.var with
    | none => simp [sees, Machine.step, Machine.read, a1, World.tag, hu, mapRes, Except.map] at ht
    | some v' =>
      have := World.derivatives_var (MShape.after cs).shape a2 hu
      rw [this] at a3
      cases a3
      rw [← a5, lookup_cons] at hv
      split at hv
      · cases hv
      · cases hv
  · rw [h2 ht]; exact hr

theorem sqrt_not_neg (t y : B64) (h : PyFloat.sqrt t = .ok y) : PyFloat.ltb y 0 = false := by
  cases t with
  | nan => cases h; rfl
  | inf b => cases b <;> cases h; rfl
  | fin m =>
    have e : PyFloat.sqrt (B64.fin m) = if m < 0 then .error .valueError else if m = 0 then .ok (.fin 0)
      else .ok (.fin (B64.rndSqrt (m.natAbs * 2 ^ 1074))) := rfl
    rw [e] at h
    split at h
    · cases h
    · split at h
      · cases h; rfl
      · cases h
        show decide (((B64.rndSqrt (m.natAbs * 2 ^ 1074) : ℕ) : ℤ) < (0 : ℤ)) = false
        rw [decide_eq_false_iff_not]
        exact not_lt.mpr (Int.natCast_nonneg _)

/-- **C09**, in double precision: after any history, no object has a negative standard deviation, except variables
with the standard deviation minus infinity, which the package accepts. -/
theorem C09_doubles_partial (cs : List (Cmd B64)) (x : Arg B64) (s : B64) (hs : sees cs (.stdDev x) = .val (.flt s))
    (hneg : PyFloat.ltb s 0 = true) : s = .inf true ∧ ∃ t, sees cs (.tag x) = .tag t := by
  have hm := MShape.after cs
  cases hx : x.eval (after cs).env with
  | none => simp [sees, Machine.step, hx, Machine.invalid] at hs
  | some val =>
    cases val with
    | plain p =>
      simp only [sees, Machine.step, hx, World.stdDevOf, Out.val.injEq, PyVal.flt.injEq] at hs
      subst hs
      cases hneg
    | unc u =>
      have hu : x.evalUnc (after cs).env = some u := by simp [Arg.evalUnc, hx]
      cases hv : u.var with
      | some v =>
        obtain ⟨cell, hc, -⟩ := (hm.evalUnc hu).2 v hv
        have ht : sees cs (.tag x) = .tag cell.tag := by
          simp only [sees, Machine.step, Machine.read, hu, World.tag, hv, hc, mapRes, Except.map]
        refine ⟨?_, _, ht⟩
        have := C09_variables_partial cs x _ s ht hs hneg
        cases s with
        | nan => cases hneg
        | fin m => cases this
        | inf b => cases b with
          | true => rfl
          | false => cases hneg
      | none =>
        exfalso
        simp only [sees, Machine.step, hx, World.stdDevOf, World.stdDev, hv, World.affStdDev] at hs
        generalize (after cs).w.errorComponents u = r at hs
        obtain ⟨w1, r⟩ := r
        cases r with
        | error e => cases hs
        | ok c =>
          simp only at hs
          cases hsum : sumSquares (c.map Prod.snd) 0 with
          | error e => rw [hsum] at hs; cases hs
          | ok t =>
            rw [hsum] at hs
            simp only at hs
            cases hq : PyFloat.sqrt t with
            | error e => rw [hq] at hs; cases hs
            | ok y =>
              rw [hq] at hs
              simp only [Out.val.injEq, PyVal.flt.injEq] at hs
              subst hs
              rw [sqrt_not_neg t _ hq] at hneg
              cases hneg

/-! ### Examples -/

/-- `x = ufloat(0, 0)`, `y = ufloat(1, 1)`, `z = ufloat(2, -inf)`, `p = x**0.5`, `q = y**0.5`, `r = y*z`, whose
standard deviations are read. -/
def exFloats08 : List (Cmd B64) :=
  [.ufloat 0 0 none, .ufloat 1 1 (some "y"), .ufloat (1 + 1) (.inf true) none,
    .binop .pow (.ref 0) (.const (.flt (.fin (2 ^ 1073)))), .binop .pow (.ref 1) (.const (.flt (.fin (2 ^ 1073)))),
    .binop .mul (.ref 1) (.ref 2), .stdDev (.ref 5)]

/-- What is checked below. -/
def B64.isNanAt (v : VarId) : Out B64 → Bool
  | .dict D => match D v with | some .nan => true | _ => false
  | _ => false

def B64.isNumOut : Out B64 → Bool
  | .val (.flt (.fin m)) => m != 0
  | _ => false

/-- `p` has a NaN derivative (with respect to an exact variable), and so has `q` (with respect to a variable with
a standard deviation): hypotheses of C07. -/
example : B64.isNanAt 0 (sees exFloats08 (.derivatives (.ref 3))) = true ∧
    B64.isNanAt 1 (sees exFloats08 (.derivatives (.ref 4))) = true ∧
    B64.isNumOut (seesKeyStd exFloats08 (.ref 4) 1) = true := by
  refine ⟨?_, ?_, ?_⟩ <;> decide +kernel

/-- `z` has a negative standard deviation. -/
example : ∃ s, sees exFloats08 (.stdDev (.ref 2)) = .val (.flt s) ∧ PyFloat.ltb s 0 = true := by
  have h : ∀ o : Out B64, (match o with | .val (.flt (.inf true)) => true | _ => false) = true →
      ∃ s, o = .val (.flt s) ∧ PyFloat.ltb s 0 = true := by
    intro o ho
    split at ho
    · exact ⟨_, rfl, rfl⟩
    · cases ho
  exact h _ (by decide +kernel)

/-- The standard deviation of `y` can be changed: `q` and `r` depend on it, `p` does not. -/
example : (match sees exFloats08 (.setStd (.ref 1) (1 + 1)) with | .done => true | _ => false) = true ∧
    (match sees exFloats08 (.derivatives (.ref 3)) with | .dict D => (D 1).isNone | _ => false) = true ∧
    (match sees exFloats08 (.derivatives (.ref 5)) with | .dict D => (D 1).isSome | _ => false) = true := by
  refine ⟨?_, ?_, ?_⟩ <;> decide +kernel

end Unc
