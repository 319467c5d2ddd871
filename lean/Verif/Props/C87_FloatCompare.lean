import Verif.Props.C08_Floats
import Verif.Props.C71_Rounding
import Verif.Props.C88_ReadOnce

/-
C87: comparisons with floating-point arithmetic.
-/

namespace Unc

set_option autoImplicit false

section any
variable {F : Type} [PyMath F] [Halts F]

/-- Is `x - y` zero, with a zero standard deviation? (What a program sees.) -/
def differenceIsZero (cs : List (Cmd F)) (x y : Arg F) : Out F :=
  match sees (cs ++ [.binop .sub x y]) (.nominal (next cs)) with
  | .val (.flt n) =>
    if PyFloat.eqb n 0 then
      match sees (cs ++ [.binop .sub x y]) (.stdDev (next cs)) with
      | .val (.flt s) => .bool (PyFloat.eqb s 0)
      | o => o
    else .bool false
  | o => o

/-- `x` is a variable: it has a tag (None by default). -/
def IsVariable (cs : List (Cmd F)) (x : Arg F) : Prop := ∃ t, sees cs (.tag x) = .tag t

theorem IsVariable.iff {cs : List (Cmd F)} {x : Arg F} {u : UF F} (h : x.evalUnc (after cs).env = some u) :
    IsVariable cs x ↔ u.var.isSome = true := by
  constructor
  · rintro ⟨t, ht⟩
    cases hv : u.var with
    | none => simp [sees, Machine.step, Machine.read, h, World.tag, hv, mapRes, Except.map] at ht
    | some v => rfl
  · intro hs
    obtain ⟨v, hv⟩ := Option.isSome_iff_exists.mp hs
    obtain ⟨cell, hc, -⟩ := ((MShape.after cs).evalUnc h).2 v hv
    exact ⟨cell.tag, by simp only [sees, Machine.step, Machine.read, h, World.tag, hv, hc, mapRes, Except.map]⟩

theorem evalUnc_of_valid {cs : List (Cmd F)} {x : Arg F} (h : sees cs (.derivatives x) ≠ .invalid) :
    ∃ u, x.evalUnc (after cs).env = some u := by
  cases hu : x.evalUnc (after cs).env with
  | none => exact absurd (by simp [sees, Machine.step, Machine.read, hu, Machine.invalid]) h
  | some u => exact ⟨u, rfl⟩

/-- What `==` gives, in terms of the difference. -/
theorem eqAff_seen {cs : List (Cmd F)} {x y : Arg F} {p q : UF F} (hx : x.evalUnc (after cs).env = some p)
    (hy : y.evalUnc (after cs).env = some q) :
    (match ((after cs).w.eqAff BinOp.sub.id p q).2 with | .error e => Out.err e | .ok b => .bool b) =
      differenceIsZero cs x y := by
  have hm := MShape.after cs
  obtain ⟨w', u, h1, h2, h3, h4⟩ := World.sub_shape hm.shape hm.ops (hm.evalUnc hx) (hm.evalUnc hy)
  have hstep : (after cs).step (.binop .sub x y) = (⟨w', (after cs).env ++ [some (.unc u)]⟩, .done) := by
    simp only [Machine.step, evalUnc_eval_floats hx, evalUnc_eval_floats hy, Val.isUnc, Bool.or_self, if_true, World.binop, h1,
      Machine.bind]
  have hg : ((after cs).env ++ [some (Val.unc u)])[(after cs).env.length]? = some (some (.unc u)) := by simp
  have ha : after (cs ++ [.binop .sub x y]) = ⟨w', (after cs).env ++ [some (.unc u)]⟩ := by rw [after_snoc', hstep]
  have hn : sees (cs ++ [.binop .sub x y]) (.nominal (next cs)) = .val (.flt u.nom) := by
    simp only [sees, ha, next, Machine.step, Arg.eval, hg, Option.join, Option.bind, id, Val.nominal]
  have hs : sees (cs ++ [.binop .sub x y]) (.stdDev (next cs)) =
      match (w'.stdDev u).2 with | .error e => .err e | .ok s => .val (.flt s) := by
    simp only [sees, ha, next, Machine.step, Arg.eval, hg, Option.join, Option.bind, id, World.stdDevOf]
    cases w'.stdDev u with
    | mk w1 r => cases r <;> rfl
  simp only [differenceIsZero, hn, hs, World.eqAff, h1, PyFloat.truthy]
  by_cases he : PyFloat.eqb u.nom 0 = true
  · simp only [he, Bool.not_true, Bool.false_eq_true, if_false, if_true]
    cases w'.stdDev u with
    | mk w1 r => cases r <;> simp
  · have he : PyFloat.eqb u.nom 0 = false := by simpa using he
    simp [he]

theorem cmpRun_unc (w : World F) (op : CmpOp) (a b : UF F) :
    (w.cmpRun op a (.unc b)).2 = (w.cmpAff BinOp.sub.id op a b).2 := by
  simp only [World.cmpRun, World.cmp, World.toAffine]
  cases w.cmpAff BinOp.sub.id op a b with
  | mk w' r => cases r <;> rfl

/-- What a comparison gives. -/
def seenBool : PyRes Bool → Out F
  | .error e => .err e
  | .ok b => .bool b

theorem compare_seen {cs : List (Cmd F)} {x y : Arg F} {p q : UF F} (hx : x.evalUnc (after cs).env = some p)
    (hy : y.evalUnc (after cs).env = some q) (op : CmpOp) :
    sees cs (.compare op x y) = seenBool
      (if p.var.isNone && q.var.isSome then ((after cs).w.cmpAff BinOp.sub.id op.swap q p).2
        else ((after cs).w.cmpAff BinOp.sub.id op p q).2) := by
  simp only [sees, Machine.step, evalUnc_eval_floats hx, evalUnc_eval_floats hy, Val.isUnc, Bool.or_self, if_true, World.compare]
  cases (p.var.isNone && q.var.isSome) with
  | true =>
    simp only [if_true]
    rw [← cmpRun_unc]
    cases (after cs).w.cmpRun op.swap q (.unc p) with
    | mk w' r => cases r <;> rfl
  | false =>
    simp only [Bool.false_eq_true, if_false]
    rw [← cmpRun_unc]
    cases (after cs).w.cmpRun op p (.unc q) with
    | mk w' r => cases r <;> rfl

/-- **C87**, `==`: in any float arithmetic and after any history, `x == y` is true if and only if the calculated difference `x - y`
has a zero nominal value and a zero standard deviation; if the standard deviation cannot be calculated, its exception is raised.
When only `y` is a variable, Python asks `y` first: the difference is `y - x`. -/
theorem C87_equality (cs : List (Cmd F)) (x y : Arg F) (hx : sees cs (.derivatives x) ≠ .invalid)
    (hy : sees cs (.derivatives y) ≠ .invalid) :
    (¬ IsVariable cs y ∨ IsVariable cs x → sees cs (.compare .eq x y) = differenceIsZero cs x y) ∧
    (IsVariable cs y → ¬ IsVariable cs x → sees cs (.compare .eq x y) = differenceIsZero cs y x) := by
  obtain ⟨p, hp⟩ := evalUnc_of_valid hx
  obtain ⟨q, hq⟩ := evalUnc_of_valid hy
  rw [IsVariable.iff hp, IsVariable.iff hq, compare_seen hp hq]
  simp only [CmpOp.swap, World.cmpAff]
  refine ⟨fun h => ?_, fun h1 h2 => ?_⟩
  · rw [if_neg (by cases hp : p.var <;> cases hq : q.var <;> simp_all), ← eqAff_seen hp hq]
    rfl
  · rw [if_pos (by cases hp : p.var <;> cases hq : q.var <;> simp_all), ← eqAff_seen hq hp]
    rfl

/-- **C87**: `x != y` is the opposite of `x == y`, and raises the same exceptions. -/
theorem C87_not_equal (cs : List (Cmd F)) (x y : Arg F) (hx : sees cs (.derivatives x) ≠ .invalid)
    (hy : sees cs (.derivatives y) ≠ .invalid) :
    sees cs (.compare .ne x y) = match sees cs (.compare .eq x y) with | .bool b => .bool (!b) | o => o := by
  obtain ⟨p, hp⟩ := evalUnc_of_valid hx
  obtain ⟨q, hq⟩ := evalUnc_of_valid hy
  rw [compare_seen hp hq, compare_seen hp hq]
  simp only [CmpOp.swap, World.cmpAff, World.neAff]
  split
  · cases (after cs).w.eqAff BinOp.sub.id q p with
    | mk w' r => cases r <;> rfl
  · cases (after cs).w.eqAff BinOp.sub.id p q with
    | mk w' r => cases r <;> rfl

/-- **C87**: `<` and `>` compare the nominal values, as floats; `<=` and `>=` are true if the strict comparison is, and otherwise
give what `==` gives. -/
theorem C87_order (cs : List (Cmd F)) (x y : Arg F) (a b : F) (hx : sees cs (.derivatives x) ≠ .invalid)
    (hy : sees cs (.derivatives y) ≠ .invalid) (ha : sees cs (.nominal x) = .val (.flt a))
    (hb : sees cs (.nominal y) = .val (.flt b)) :
    sees cs (.compare .lt x y) = .bool (PyFloat.ltb a b) ∧
    sees cs (.compare .gt x y) = .bool (PyFloat.ltb b a) ∧
    sees cs (.compare .le x y) = (if PyFloat.ltb a b then .bool true else sees cs (.compare .eq x y)) ∧
    sees cs (.compare .ge x y) = (if PyFloat.ltb b a then .bool true else sees cs (.compare .eq x y)) := by
  obtain ⟨p, hp⟩ := evalUnc_of_valid hx
  obtain ⟨q, hq⟩ := evalUnc_of_valid hy
  have ea : p.nom = a := by
    simpa only [sees, Machine.step, evalUnc_eval_floats hp, Val.nominal, Out.val.injEq, PyVal.flt.injEq] using ha
  have eb : q.nom = b := by
    simpa only [sees, Machine.step, evalUnc_eval_floats hq, Val.nominal, Out.val.injEq, PyVal.flt.injEq] using hb
  simp only [compare_seen hp hq, CmpOp.swap, World.cmpAff, World.ltAff, World.gtAff, World.leAff, World.geAff, ea, eb]
  cases (p.var.isNone && q.var.isSome) <;> cases PyFloat.ltb a b <;> cases PyFloat.ltb b a <;> simp [seenBool]

/-- **C87**: `bool(x)` is `x != 0`. -/
theorem C87_bool (cs : List (Cmd F)) (x : Arg F) (hx : sees cs (.derivatives x) ≠ .invalid) :
    sees cs (.toBool x) = sees cs (.compare .ne x (.const (.flt 0))) := by
  obtain ⟨p, hp⟩ := evalUnc_of_valid hx
  have h0 : (Arg.const (.flt 0) : Arg F).eval (after cs).env = some (.plain (.flt 0)) := rfl
  simp only [sees, Machine.step, Machine.read, hp, evalUnc_eval_floats hp, h0, Val.isUnc, Bool.true_or, if_true, World.compare,
    World.cmpRun, World.toBool]
  have key : ∀ w1, (after cs).w.cmp BinOp.sub.id .ne p (.plain (.flt 0)) ≠ (w1, .ok none) := by
    intro w1 h
    simp only [World.cmp, World.toAffine] at h
    generalize World.cmpAff BinOp.sub.id .ne _ p _ = r at h
    obtain ⟨w2, r⟩ := r
    cases r <;> cases h
  cases hc : (after cs).w.cmp BinOp.sub.id .ne p (.plain (.flt 0)) with
  | mk w' r =>
    cases r with
    | error e => rfl
    | ok o =>
      cases o with
      | none => exact absurd hc (key w')
      | some b => rfl

end any

/-! ### Double precision -/

attribute [local irreducible] B64.mul B64.rndSqrt B64.round

theorem B64.round_neg_fin {m : ℤ} {d : ℕ} (h : (B64.round m d).Fin) :
    B64.round m d = .fin (B64.rndInt m d) ∧ B64.round (-m) d = .fin (-B64.rndInt m d) := by
  have h1 := B64.round_fin m d h
  refine ⟨h1, ?_⟩
  have e : B64.rndInt (-m) d = -B64.rndInt m d := by simp [B64.rndInt]
  have hlt : (B64.rndInt m d).natAbs < 2 ^ 2098 := by
    by_contra hn
    unfold B64.round at h1
    rw [if_neg hn] at h1
    cases h1
  unfold B64.round
  rw [e, Int.natAbs_neg, if_pos hlt]

theorem B64.mul_fin (x y : ℤ) : B64.mul (.fin x) (.fin y) = B64.round (x * y) (2 ^ 1074) := by
  unfold B64.mul
  rfl

theorem B64.add_neg_self (r : ℤ) : B64.add (B64.add (.fin 0) (.fin (-r))) (.fin r) = .fin 0 := by
  by_cases h : r = 0
  · subst h; simp [B64.add]
  · have e : B64.add (.fin 0) (.fin (-r)) = .fin (-r) := by simp [B64.add]
    rw [e]
    simp only [B64.add, neg_eq_zero, h, if_false, neg_add_cancel]
    exact B64.round_zero' 1

theorem B64.minus_plus_fin (o m : ℤ) (h : (B64.mul (.fin o) (.fin m)).Fin) :
    B64.add (B64.add (.fin 0) (B64.mul (B64.neg (.fin o)) (.fin m))) (B64.mul (.fin o) (.fin m)) = .fin 0 := by
  rw [B64.mul_fin] at h
  obtain ⟨h1, h2⟩ := B64.round_neg_fin h
  have e : B64.neg (.fin o) = .fin (-o) := rfl
  rw [e, B64.mul_fin, B64.mul_fin, neg_mul, h2, h1]
  exact B64.add_neg_self _

theorem B64.minus_plus (d : B64) (h : Rounded.Fin ((1 : B64) * d)) : (0 + (-1) * d) + 1 * d = (0 : B64) := by
  have h' : (B64.mul (.fin (2 ^ 1074)) d).Fin := h
  show B64.add (B64.add (.fin 0) (B64.mul (B64.neg (.fin (2 ^ 1074))) d)) (B64.mul (.fin (2 ^ 1074)) d) = .fin 0
  generalize (2 : ℤ) ^ 1074 = o at h' ⊢
  cases d with
  | nan => unfold B64.mul at h'; exact h'.elim
  | inf b => unfold B64.mul at h'; exact (B64.infTimes_not_fin b o h').elim
  | fin m => exact B64.minus_plus_fin o m h'

theorem B64.sub_self_fin (n : B64) (h : Rounded.Fin n) : n - n = (0 : B64) := by
  have h' : n.Fin := h
  show B64.add n (B64.neg n) = .fin 0
  cases n with
  | nan => exact h'.elim
  | inf b => exact h'.elim
  | fin m =>
    show B64.add (.fin m) (.fin (-m)) = .fin 0
    by_cases hm : m = 0
    · subst hm; simp [B64.add]
    · simp only [B64.add, neg_eq_zero, hm, if_false, add_neg_cancel]
      exact B64.round_zero' 1

theorem B64.zero_times (a : B64) (h : Rounded.Fin a) : (0 : B64) * a = 0 := by
  have h' : a.Fin := h
  show B64.mul (.fin 0) a = .fin 0
  cases a with
  | nan => exact h'.elim
  | inf b => exact h'.elim
  | fin m => rw [B64.mul_fin, zero_mul]; exact B64.round_zero' _

theorem difference_known {cs : List (Cmd B64)} {i j : Nat} {D : VarId → Option B64} (hi : Known cs (.ref i) D)
    (hj : Known cs (.ref j) D) {n : B64} (hn : sees cs (.nominal (.ref i)) = .val (.flt n))
    (hn' : sees cs (.nominal (.ref j)) = .val (.flt n)) (hf : Rounded.Fin n)
    (hd : ∀ v d, D v = some d → Rounded.Fin ((1 : B64) * d))
    (hv : ∀ v, D v ≠ none → ∃ cell, (after cs).w.vars[v]? = some cell ∧ Rounded.Fin cell.std) :
    differenceIsZero cs (.ref i) (.ref j) = .bool true := by
  obtain ⟨h1, h2, h3⟩ := C88_binop cs .sub i j D D hi hj n n (n - n) 1 (-1) hn hn' rfl rfl rfl
  obtain ⟨p, p1, -, p3⟩ := hi.readOnce
  obtain ⟨q, q1, -, q3⟩ := hj.readOnce
  have p3 := p3 i rfl
  have q3 := q3 j rfl
  cases p with
  | plain c => cases p3
  | unc p =>
  cases q with
  | plain c => cases q3
  | unc q =>
  have hm := MShape.after cs
  obtain ⟨w', r, b1, b2, -, b4⟩ := World.binop_shape hm.shape hm.ops .sub (hm.eval p1) (hm.eval q1) rfl
  have hr : ∃ u, r = .ok (.unc u) ∧ u.var = none := by
    cases r with
    | error e => simp [sees, Machine.step, p1, q1, Val.isUnc, b1, Machine.bind] at h1
    | ok x => obtain ⟨u, rfl, hu, -⟩ := b4 x rfl; exact ⟨u, rfl, hu⟩
  obtain ⟨u, rfl, hu⟩ := hr
  have hstep : (after cs).step (.binop .sub (.ref i) (.ref j)) = (⟨w', (after cs).env ++ [some (.unc u)]⟩, .done) := by
    simp only [Machine.step, p1, q1, Val.isUnc, Bool.or_self, if_true, b1, Machine.bind]
  have ha : after (cs ++ [.binop .sub (.ref i) (.ref j)]) = ⟨w', (after cs).env ++ [some (.unc u)]⟩ := by
    rw [after_snoc', hstep]
  have hev : (next cs).evalUnc (after (cs ++ [.binop .sub (.ref i) (.ref j)])).env = some u := by
    rw [ha]
    simp [next, Arg.evalUnc, Arg.eval]
  obtain ⟨n', D', σ', hq⟩ := C05_quantities_floats (cs ++ [.binop .sub (.ref i) (.ref j)]) (next cs) (by rw [h3]; simp)
  have eD : D' = chainRule2 1 (-1) D D := by
    have := hq.derivatives
    rw [h3] at this
    simpa using this.symm
  have hz : ∀ v d, D' v = some d → d = 0 ∧ Rounded.Fin (σ' v) := by
    intro v d hvd
    obtain ⟨-, -, -, -, -, -, -, -, -, hc⟩ := hq.state
    obtain ⟨cell, c1, c2⟩ := hc v (by rw [hvd]; simp)
    rw [eD] at hvd
    unfold chainRule2 at hvd
    cases hD : D v with
    | none => rw [hD] at hvd; cases hvd
    | some a =>
      rw [hD] at hvd
      simp only [Option.some.injEq] at hvd
      obtain ⟨cell', d1, d2⟩ := hv v (by rw [hD]; simp)
      rw [ha] at c1
      simp only [b2.vars] at c1
      rw [d1] at c1
      cases c1
      exact ⟨hvd ▸ B64.minus_plus a (hd v a hD), c2 ▸ d2⟩
  obtain ⟨l, -, -, -, hs⟩ := C05_std_dev_floats hq
  have hs := hs (by
    intro t ht
    simp [sees, Machine.step, Machine.read, hev, World.tag, hu, mapRes, Except.map] at ht)
  rw [quadrature_zero _ (by
    intro e he
    obtain ⟨v, -, hve⟩ := List.mem_filterMap.mp he
    obtain ⟨d, hd, rfl⟩ := Option.map_eq_some_iff.mp hve
    obtain ⟨rfl, hσ⟩ := hz v d hd
    split
    · rfl
    · rw [B64.zero_times _ hσ]; rfl)] at hs
  rw [differenceIsZero, h2, hs, B64.sub_self_fin n hf]
  rfl

/-- **C87**, doubles: two numbers with the same nominal value and the same derivatives are equal, if their derivatives are known
(the numbers are variables, or results that were read before), and if no float is infinite or NaN (`1 * d` is `d` itself, for a
double). Without the reading, this is false: see `C87_fails_reflexive`. -/
theorem C87_equal_known_partial (cs : List (Cmd B64)) (i j : Nat) (D : VarId → Option B64) (hi : Known cs (.ref i) D)
    (hj : Known cs (.ref j) D) (n : B64) (σ : VarId → B64) (hq : Quantity cs (.ref i) n D σ)
    (hn : sees cs (.nominal (.ref j)) = .val (.flt n)) (hf : Rounded.Fin n)
    (hd : ∀ v d, D v = some d → Rounded.Fin ((1 : B64) * d)) (hs : ∀ v, D v ≠ none → Rounded.Fin (σ v)) :
    sees cs (.compare .eq (.ref i) (.ref j)) = .bool true ∧ sees cs (.compare .ne (.ref i) (.ref j)) = .bool false ∧
    sees cs (.compare .le (.ref i) (.ref j)) = .bool true ∧ sees cs (.compare .ge (.ref i) (.ref j)) = .bool true := by
  have hv : ∀ v, D v ≠ none → ∃ cell, (after cs).w.vars[v]? = some cell ∧ Rounded.Fin cell.std := by
    intro v hv
    obtain ⟨-, -, -, -, -, -, -, -, -, hc⟩ := hq.state
    obtain ⟨cell, c1, c2⟩ := hc v hv
    exact ⟨cell, c1, c2 ▸ hs v hv⟩
  have hx : sees cs (.derivatives (.ref i)) ≠ .invalid := by rw [hq.derivatives]; simp
  have hy : sees cs (.derivatives (.ref j)) ≠ .invalid := by
    obtain ⟨q, q1, -, q3⟩ := hj.readOnce
    have q3 := q3 j rfl
    cases q with
    | plain c => cases q3
    | unc q =>
      intro h
      have e : (Arg.ref j : Arg B64).evalUnc (after cs).env = some q := by simp only [Arg.evalUnc, q1]
      obtain ⟨w', d, h1, -⟩ := World.derivatives_shape (MShape.after cs).shape ((MShape.after cs).evalUnc e)
      simp [sees, Machine.step, Machine.read, e, h1, mapRes, Except.map] at h
  have heq : sees cs (.compare .eq (.ref i) (.ref j)) = .bool true := by
    obtain ⟨e1, e2⟩ := C87_equality cs (.ref i) (.ref j) hx hy
    by_cases h : ¬ IsVariable cs (.ref j : Arg B64) ∨ IsVariable cs (.ref i)
    · rw [e1 h]
      exact difference_known hi hj hq.nominal hn hf hd hv
    · rw [not_or, not_not] at h
      rw [e2 h.1 h.2]
      exact difference_known hj hi hn hq.nominal hf hd hv
  obtain ⟨-, -, o3, o4⟩ := C87_order cs (.ref i) (.ref j) n n hx hy hq.nominal hn
  refine ⟨heq, by rw [C87_not_equal cs _ _ hx hy, heq]; rfl, ?_, ?_⟩
  · rw [o3, heq, ite_self]
  · rw [o4, heq, ite_self]

/-! ### What goes wrong -/

/-- `true` when the output is the boolean `b`. -/
def Out.isBool (b : Bool) : Out B64 → Bool
  | .bool c => b == c
  | _ => false

theorem Out.isBool_eq {b : Bool} {o : Out B64} (h : o.isBool b = true) : o = .bool b := by
  cases o <;> simp_all [Out.isBool]

/-- `true` when the output is an `OverflowError`. -/
def Out.isOverflow : Out B64 → Bool
  | .err .overflowError => true
  | _ => false

theorem Out.isOverflow_eq {o : Out B64} (h : o.isOverflow = true) : o = .err .overflowError := by
  cases o with
  | err e => cases e <;> simp_all [Out.isOverflow]
  | _ => simp_all [Out.isOverflow]

/-- `v = ufloat(1, 1)`, `x = 0.1*v + 0.2*v`. -/
def exC87 : List (Cmd B64) :=
  [.ufloat 1 1 none, .binop .mul (.const (.flt exTenth)) (.ref 0), .binop .mul (.const (.flt exFifth)) (.ref 0),
   .binop .add (.ref 1) (.ref 2)]

/-- **C87**: with doubles, `==` is not reflexive: `x = 0.1*v + 0.2*v; x == x` is False (and `x != x` is True, `x <= x` is False).
The difference `x - x` has the derivative 0.1 + 0.2 - 0.1 - 0.2 with respect to `v`, which is not 0. -/
theorem C87_fails_reflexive : sees exC87 (.compare .eq (.ref 3) (.ref 3)) = .bool false ∧
    sees exC87 (.compare .ne (.ref 3) (.ref 3)) = .bool true ∧ sees exC87 (.compare .le (.ref 3) (.ref 3)) = .bool false :=
  ⟨Out.isBool_eq (by decide +kernel), Out.isBool_eq (by decide +kernel), Out.isBool_eq (by decide +kernel)⟩

/-- **C87**: reading the derivatives of `x` changes the comparison: after `x.derivatives`, `x == x` is True. -/
theorem C87_fails_reads : sees exC87 (.compare .eq (.ref 3) (.ref 3)) ≠
      sees (exC87 ++ [.derivatives (.ref 3)]) (.compare .eq (.ref 3) (.ref 3)) ∧
    sees (exC87 ++ [.derivatives (.ref 3)]) (.compare .eq (.ref 3) (.ref 3)) = .bool true := by
  have h : sees (exC87 ++ [.derivatives (.ref 3)]) (.compare .eq (.ref 3) (.ref 3)) = .bool true :=
    Out.isBool_eq (by decide +kernel)
  refine ⟨?_, h⟩
  rw [h, C87_fails_reflexive.1]
  simp

/-- **C87**: with doubles, `==` is not symmetric: with `y = (0.1 + 0.2)*v`, `x == y` is False and `y == x` is True. -/
theorem C87_fails_symmetric :
    sees (exC87 ++ [.binop .mul (.const (.flt (exTenth + exFifth))) (.ref 0)]) (.compare .eq (.ref 3) (.ref 4)) = .bool false ∧
    sees (exC87 ++ [.binop .mul (.const (.flt (exTenth + exFifth))) (.ref 0)]) (.compare .eq (.ref 4) (.ref 3)) = .bool true :=
  ⟨Out.isBool_eq (by decide +kernel), Out.isBool_eq (by decide +kernel)⟩

/-- 2⁻⁶⁷⁴, about 3e-203. -/
def exSmallStd : B64 := .fin (2 ^ 400)

/-- 2⁶⁰⁰, about 4e180. -/
def exLargeStd : B64 := .fin (2 ^ 1674)

/-- **C87**: with doubles, independent variables with the same nominal value and a small (non-zero) standard deviation are equal:
the square of the standard deviation underflows. -/
theorem C87_fails_underflow :
    sees [.ufloat 1 exSmallStd none, .ufloat 1 exSmallStd none] (.compare .eq (.ref 0) (.ref 1)) = .bool true ∧
    sees [.ufloat 1 exSmallStd none, .ufloat 1 exSmallStd none] (.stdDev (.ref 0)) = .val (.flt exSmallStd) :=
  ⟨Out.isBool_eq (by decide +kernel), rfl⟩

/-- **C87**: with doubles, a comparison may raise an OverflowError: the square of the standard deviation is too large. -/
theorem C87_fails_overflow :
    sees [.ufloat 1 exLargeStd none, .ufloat 1 exLargeStd none] (.compare .eq (.ref 0) (.ref 1)) = .err .overflowError :=
  Out.isOverflow_eq (by decide +kernel)

/-! ### The hypotheses are met -/

/-- `v = ufloat(1, 1)`, `x = v + v`, `x.derivatives`. -/
def exC87read : List (Cmd B64) := [.ufloat 1 1 none, .binop .add (.ref 0) (.ref 0), .derivatives (.ref 1)]

set_option maxRecDepth 100000 in
theorem exC87_variable : sees [.ufloat (1 : B64) 1 none] (.derivatives (.ref 0)) = .dict (fun v => [(0, 1)].lookup v) := rfl

set_option maxRecDepth 100000 in
/-- `x == x` is True after `x.derivatives`. -/
example : sees exC87read (.compare .eq (.ref 1) (.ref 1)) = .bool true := by
  have hv : Known [.ufloat (1 : B64) 1 none] (.ref 0) (fun v => [(0, 1)].lookup v) := .variable 0 none _ rfl exC87_variable
  have hd := (C88_sum_product [.ufloat (1 : B64) 1 none] 0 0 _ _ hv hv 1 1 rfl rfl).1
  have hk : Known exC87read (.ref 1) (chainRule2 1 1 (fun v => [(0, 1)].lookup v) (fun v => [(0, 1)].lookup v)) :=
    .read [.ufloat 1 1 none, .binop .add (.ref 0) (.ref 0)] (.derivatives (.ref 1)) [] 1 0 _ rfl (by simp [calculates]) hd
  have hD := C88_final [.ufloat (1 : B64) 1 none, .binop .add (.ref 0) (.ref 0)] 1 _ hd (.derivatives (.ref 1)) 0 (by simp [calculates]) []
  obtain ⟨n, D, σ, hq⟩ := C05_quantities_floats exC87read (.ref 1) (by
    intro h
    have := hD.symm.trans h
    cases this)
  have eD : D = chainRule2 1 1 (fun v => [(0, 1)].lookup v) (fun v => [(0, 1)].lookup v) := by
    simpa using hq.derivatives.symm.trans hD
  subst eD
  have hn : sees exC87read (.nominal (.ref 1)) = .val (.flt (1 + 1)) := rfl
  have en : n = 1 + 1 := by simpa using hq.nominal.symm.trans hn
  have e2 : (1 : B64) + 1 = .fin (2 * 2 ^ 1074) := by decide +kernel
  have e1 : (1 : B64) * ((0 + 1 * 1) + 1 * 1) = .fin (2 * 2 ^ 1074) := by decide +kernel
  have fin : ∀ m, Rounded.Fin (B64.fin m) := fun _ => trivial
  refine (C87_equal_known_partial exC87read 1 1 _ hk hk n σ hq hq.nominal (by rw [en, e2]; exact fin _) ?_ ?_).1
  · intro v d hd
    match v, hd with
    | 0, hd =>
      have : d = (0 + 1 * 1) + 1 * 1 := by cases hd; rfl
      rw [this, e1]; exact fin _
    | v + 1, hd => cases hd
  · intro v hv
    match v, hv with
    | 0, hv =>
      have h := hq.std 0 hv
      have h' : seesKeyStd exC87read (.ref 1) 0 = .val (.flt 1) := rfl
      have : σ 0 = 1 := by simpa using h.symm.trans h'
      rw [this]; exact fin _
    | v + 1, hv => exact absurd rfl hv

/-- The hypotheses of `C87_equality`, `C87_not_equal`, `C87_order` and `C87_bool`: a variable `x` and `2*x`. -/
example : sees [.ufloat (.fin 3 : ZN) (.fin 1) none, .binop .mul (.const (.flt (.fin 2))) (.ref 0)] (.derivatives (.ref 0)) ≠ .invalid ∧
    sees [.ufloat (.fin 3 : ZN) (.fin 1) none, .binop .mul (.const (.flt (.fin 2))) (.ref 0)] (.derivatives (.ref 1)) ≠ .invalid ∧
    IsVariable [.ufloat (.fin 3 : ZN) (.fin 1) none, .binop .mul (.const (.flt (.fin 2))) (.ref 0)] (.ref 0) ∧
    ¬ IsVariable [.ufloat (.fin 3 : ZN) (.fin 1) none, .binop .mul (.const (.flt (.fin 2))) (.ref 0)] (.ref 1) ∧
    sees [.ufloat (.fin 3 : ZN) (.fin 1) none, .binop .mul (.const (.flt (.fin 2))) (.ref 0)] (.nominal (.ref 0)) = .val (.flt (.fin 3)) ∧
    sees [.ufloat (.fin 3 : ZN) (.fin 1) none, .binop .mul (.const (.flt (.fin 2))) (.ref 0)] (.nominal (.ref 1)) = .val (.flt (.fin 6)) := by
  refine ⟨fun h => ?_, fun h => ?_, ⟨none, rfl⟩, fun ⟨t, h⟩ => ?_, rfl, rfl⟩ <;> cases h

end Unc
