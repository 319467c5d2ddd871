import Verif.Props.C87_FloatCompare
import Verif.Lemmas.CompareFloat

/-
C87: comparisons of numbers with uncertainty and floats, with floating-point arithmetic.
-/

namespace Unc

set_option autoImplicit false

section any
variable {F : Type} [PyMath F] [Halts F]

/-- The opposite of what is seen. -/
def Out.not : Out F → Out F
  | .bool b => .bool (!b)
  | o => o

omit [Halts F] in
theorem cmpRun_float (w : World F) (op : CmpOp) (a : UF F) (c : F) :
    (w.cmpRun op a (.plain (.flt c))).2 =
      ((w.alloc (.dict [])).1.cmpAff BinOp.sub.id op a { nom := c, lin := w.nodes.length, var := none }).2 := by
  simp only [World.cmpRun, World.cmp, World.toAffine, World.alloc]
  generalize World.cmpAff BinOp.sub.id op _ a _ = r
  obtain ⟨w', r⟩ := r
  cases r <;> rfl

/-- What a comparison with a float gives, in both orders. -/
theorem compare_float_seen {cs : List (Cmd F)} {x : Arg F} {p : UF F} (hx : x.evalUnc (after cs).env = some p) (c : F) (op : CmpOp) :
    sees cs (.compare op x (.const (.flt c))) = seenBool
      (((after cs).w.alloc (.dict [])).1.cmpAff BinOp.sub.id op p { nom := c, lin := (after cs).w.nodes.length, var := none }).2 ∧
    sees cs (.compare op (.const (.flt c)) x) = seenBool
      (((after cs).w.alloc (.dict [])).1.cmpAff BinOp.sub.id op.swap p
        { nom := c, lin := (after cs).w.nodes.length, var := none }).2 := by
  have h0 : (Arg.const (.flt c) : Arg F).eval (after cs).env = some (.plain (.flt c)) := rfl
  constructor
  · rw [← cmpRun_float]
    simp only [sees, Machine.step, evalUnc_eval_floats hx, h0, Val.isUnc, Bool.true_or, if_true, World.compare]
    cases (after cs).w.cmpRun op p (.plain (.flt c)) with
    | mk w' r => cases r <;> rfl
  · rw [← cmpRun_float]
    simp only [sees, Machine.step, evalUnc_eval_floats hx, h0, Val.isUnc, Bool.or_true, if_true, World.compare]
    cases (after cs).w.cmpRun op.swap p (.plain (.flt c)) with
    | mk w' r => cases r <;> rfl

theorem eqAff_float_seen {cs : List (Cmd F)} {x : Arg F} {p : UF F} (hx : x.evalUnc (after cs).env = some p) (c : F) :
    seenBool (((after cs).w.alloc (.dict [])).1.eqAff BinOp.sub.id p
      { nom := c, lin := (after cs).w.nodes.length, var := none }).2 = differenceIsZero cs x (.const (.flt c)) := by
  have hm := MShape.after cs
  obtain ⟨w1, w2, u1, u2, h1, h2, h3, h4⟩ := World.sub_float hm.shape hm.ops (hm.evalUnc hx) c
  have h0 : (Arg.const (.flt c) : Arg F).eval (after cs).env = some (.plain (.flt c)) := rfl
  have hstep : (after cs).step (.binop .sub x (.const (.flt c))) = (⟨w1, (after cs).env ++ [some (.unc u1)]⟩, .done) := by
    simp only [Machine.step, evalUnc_eval_floats hx, h0, Val.isUnc, Bool.true_or, if_true, World.binop, h1, Machine.bind]
  have hg : ((after cs).env ++ [some (Val.unc u1)])[(after cs).env.length]? = some (some (.unc u1)) := by simp
  have ha : after (cs ++ [.binop .sub x (.const (.flt c))]) = ⟨w1, (after cs).env ++ [some (.unc u1)]⟩ := by
    rw [after_snoc', hstep]
  have hn : sees (cs ++ [.binop .sub x (.const (.flt c))]) (.nominal (next cs)) = .val (.flt u1.nom) := by
    simp only [sees, ha, next, Machine.step, Arg.eval, hg, Option.join, Option.bind, id, Val.nominal]
  have hs : sees (cs ++ [.binop .sub x (.const (.flt c))]) (.stdDev (next cs)) =
      match (w1.stdDev u1).2 with | .error e => .err e | .ok s => .val (.flt s) := by
    simp only [sees, ha, next, Machine.step, Arg.eval, hg, Option.join, Option.bind, id, World.stdDevOf]
    cases w1.stdDev u1 with
    | mk w' r => cases r <;> rfl
  simp only [differenceIsZero, hn, hs, World.eqAff, h2, PyFloat.truthy, h3, h4]
  by_cases he : PyFloat.eqb u2.nom 0 = true
  · simp only [he, Bool.not_true, Bool.false_eq_true, if_false, if_true]
    cases w2.stdDev u2 with
    | mk w' r => cases r <;> simp [seenBool]
  · have he : PyFloat.eqb u2.nom 0 = false := by simpa using he
    simp [he, seenBool]

/-- **C87**, `==` with a float, in any float arithmetic and after any history: `x == c` and `c == x` are true if and only if the
calculated difference `x - c` has a zero nominal value and a zero standard deviation. -/
theorem C87_float_equality (cs : List (Cmd F)) (x : Arg F) (c : F) (hx : sees cs (.derivatives x) ≠ .invalid) :
    sees cs (.compare .eq x (.const (.flt c))) = differenceIsZero cs x (.const (.flt c)) ∧
    sees cs (.compare .eq (.const (.flt c)) x) = differenceIsZero cs x (.const (.flt c)) := by
  obtain ⟨p, hp⟩ := evalUnc_of_valid hx
  obtain ⟨h1, h2⟩ := compare_float_seen hp c .eq
  exact ⟨h1.trans (eqAff_float_seen hp c), h2.trans (eqAff_float_seen hp c)⟩

/-- **C87**: `x != c` and `c != x` are the opposite of `x == c`, and raise the same exceptions. -/
theorem C87_float_not_equal (cs : List (Cmd F)) (x : Arg F) (c : F) (hx : sees cs (.derivatives x) ≠ .invalid) :
    sees cs (.compare .ne x (.const (.flt c))) = (differenceIsZero cs x (.const (.flt c))).not ∧
    sees cs (.compare .ne (.const (.flt c)) x) = (differenceIsZero cs x (.const (.flt c))).not := by
  obtain ⟨p, hp⟩ := evalUnc_of_valid hx
  obtain ⟨h1, h2⟩ := compare_float_seen hp c .ne
  rw [h1, h2, ← eqAff_float_seen hp c]
  simp only [CmpOp.swap, World.cmpAff, World.neAff]
  generalize World.eqAff BinOp.sub.id _ p _ = r
  obtain ⟨w', r⟩ := r
  cases r <;> exact ⟨rfl, rfl⟩

/-- **C87**: `<` and `>` with a float compare the nominal value and the float; `<=` and `>=` are true if the strict comparison is,
and otherwise give what `==` gives. -/
theorem C87_float_order (cs : List (Cmd F)) (x : Arg F) (a c : F) (hx : sees cs (.derivatives x) ≠ .invalid)
    (ha : sees cs (.nominal x) = .val (.flt a)) :
    sees cs (.compare .lt x (.const (.flt c))) = .bool (PyFloat.ltb a c) ∧
    sees cs (.compare .gt x (.const (.flt c))) = .bool (PyFloat.ltb c a) ∧
    sees cs (.compare .le x (.const (.flt c))) =
      (if PyFloat.ltb a c then .bool true else sees cs (.compare .eq x (.const (.flt c)))) ∧
    sees cs (.compare .ge x (.const (.flt c))) =
      (if PyFloat.ltb c a then .bool true else sees cs (.compare .eq x (.const (.flt c)))) ∧
    (∀ op, sees cs (.compare op (.const (.flt c)) x) = sees cs (.compare op.swap x (.const (.flt c)))) := by
  obtain ⟨p, hp⟩ := evalUnc_of_valid hx
  have ea : p.nom = a := by
    simp only [sees, Machine.step, evalUnc_eval_floats hp, Val.nominal] at ha
    simpa using ha
  refine ⟨?_, ?_, ?_, ?_, fun op => (compare_float_seen hp c op).2.trans (compare_float_seen hp c op.swap).1.symm⟩ <;>
  rw [(compare_float_seen hp c _).1] <;>
  try rw [(compare_float_seen hp c _).1]
  all_goals simp only [World.cmpAff, World.ltAff, World.gtAff, World.leAff, World.geAff, ea]
  · rfl
  · rfl
  · cases PyFloat.ltb a c <;> simp [seenBool]
  · cases PyFloat.ltb c a <;> simp [seenBool]

/-- **C87**: `bool(x)` is false if and only if `x - 0` has a zero nominal value and a zero standard deviation. -/
theorem C87_bool_difference (cs : List (Cmd F)) (x : Arg F) (hx : sees cs (.derivatives x) ≠ .invalid) :
    sees cs (.toBool x) = (differenceIsZero cs x (.const (.flt 0))).not :=
  (C87_bool cs x hx).trans (C87_float_not_equal cs x 0 hx).1

end any

/-! ### Double precision -/

/-- **C87**: with doubles, a number with a non-zero uncertainty can be equal to a float, and false: `ufloat(1, 1e-203) == 1` is
True, and `bool(ufloat(0, 1e-203))` is False. -/
theorem C87_fails_float_underflow :
    sees [.ufloat 1 exSmallStd none] (.compare .eq (.ref 0) (.const (.flt 1))) = .bool true ∧
    sees [.ufloat 0 exSmallStd none] (.toBool (.ref 0)) = .bool false ∧
    sees [.ufloat 0 exSmallStd none] (.stdDev (.ref 0)) = .val (.flt exSmallStd) :=
  ⟨Out.isBool_eq (by decide +kernel), Out.isBool_eq (by decide +kernel), rfl⟩

/-- **C87**: with doubles, `bool(ufloat(0, 1e180))` raises an OverflowError. -/
theorem C87_fails_float_overflow :
    sees [.ufloat 0 exLargeStd none] (.toBool (.ref 0)) = .err .overflowError :=
  Out.isOverflow_eq (by decide +kernel)

/-! ### The hypotheses are met -/

set_option maxRecDepth 100000 in
/-- `v = ufloat(1, 1)`: `v` has derivatives; `v == 1` is False, `v <= 2` is True, `v - v == 0` is True. -/
example : sees [.ufloat (1 : B64) 1 none] (.derivatives (.ref 0)) ≠ .invalid ∧
    sees [.ufloat (1 : B64) 1 none] (.nominal (.ref 0)) = .val (.flt 1) ∧
    sees [.ufloat (1 : B64) 1 none] (.compare .eq (.ref 0) (.const (.flt 1))) = .bool false ∧
    sees [.ufloat (1 : B64) 1 none] (.compare .le (.ref 0) (.const (.flt (1 + 1)))) = .bool true ∧
    sees [.ufloat (1 : B64) 1 none, .binop .sub (.ref 0) (.ref 0)] (.compare .eq (.const (.flt 0)) (.ref 1)) = .bool true := by
  refine ⟨?_, rfl, Out.isBool_eq (by decide +kernel), Out.isBool_eq (by decide +kernel), Out.isBool_eq (by decide +kernel)⟩
  intro h
  cases h

end Unc
