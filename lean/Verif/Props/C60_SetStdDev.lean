import Verif.Spec.PySyntax
import Verif.Props.C60_FixersComplete
import Verif.Props.C60_Legacy

/-
C60: updates of `set_std_dev()`, which replace an expression by an assignment.
-/

namespace Unc

set_option autoImplicit false

/-! ### Valid programs -/

theorem fixStdDevNode_valid {block : Nat → Nat → Bool} {s : Bool} {f : Ex} {k : List ArgKind} {args : List Ex}
    (h1 : f.valid block false = true) (h2 : Ex.validList block (fun _ => false) args = true)
    (h3 : (∃ e, f = .attr e "set_std_dev") → s = true) : (fixStdDevNode (.call f k args)).valid block s = true := by
  rcases fixStdDevNode_cases f k args with hx | ⟨e, rfl, hx⟩ | ⟨e, x, rfl, rfl, hx⟩ | ⟨e, n, x, rfl, rfl, hx⟩
  · rw [hx]; simp [Ex.valid, h1, h2]
  · rw [hx]; simpa [Ex.valid] using h1
  · rw [hx]
    simp only [Ex.validList, Bool.and_true] at h2
    simp only [Ex.valid] at h1
    simp [Ex.valid, h1, h2, h3 ⟨_, rfl⟩]
  · rw [hx]
    simp only [Ex.validList, Bool.and_true] at h2
    simp only [Ex.valid] at h1
    simp [Ex.valid, h1, h2, h3 ⟨_, rfl⟩]

theorem fixPower_setter {node : Ex → Ex} {f : Ex} (h : ∃ e, fixPower node false f = .attr e "set_std_dev") :
    ∃ e, f = .attr e "set_std_dev" := by
  obtain ⟨e, h⟩ := h
  obtain ⟨e0, rfl, -⟩ := fixPower_attr h
  exact ⟨e0, rfl⟩

mutual
theorem fixStdDev_valid (block : Nat → Nat → Bool) : ∀ (e : Ex) (s b : Bool), e.valid block s = true →
    e.setsAreStatements block s → (fixPower fixStdDevNode b e).valid block s = true
  | .name _, _, _, _, _ => rfl
  | .str _, _, _, _, _ => rfl
  | .tuple l, s, b, h, hs => by
    simp only [fixPower, Ex.valid]; exact fixStdDevList_valid block l _ h hs
  | .attr e n, s, b, h, hs => by
    simp only [fixPower, Ex.valid]; exact fixStdDev_valid block e false false h hs
  | .call f k args, s, b, h, hs => by
    simp only [Ex.valid, Bool.and_eq_true] at h
    obtain ⟨s1, s2, s3⟩ := hs
    have e1 := fixStdDev_valid block f false false h.1 s1
    have e2 := fixStdDevList_valid block args _ h.2 s2
    cases b
    · simp only [fixPower, Bool.false_eq_true, if_false, Ex.valid, e1, e2, Bool.and_true]
    · simp only [fixPower, if_true]
      exact fixStdDevNode_valid e1 e2 fun hf => s3 (fixPower_setter hf)
  | .trail e c l, s, b, h, hs => by
    simp only [Ex.valid, Bool.and_eq_true] at h
    simp only [fixPower, Ex.valid, fixStdDev_valid block e false false h.1 hs.1, fixStdDevList_valid block l _ h.2 hs.2, Bool.and_true]
  | .assign e n x, s, b, h, hs => by
    simp only [Ex.valid, Bool.and_eq_true] at h
    simp only [fixPower, Ex.valid, h.1.1, fixStdDev_valid block e false false h.1.2 hs.1, fixStdDev_valid block x false true h.2 hs.2,
      Bool.and_true]
  | .assign2 e n m x, s, b, h, hs => by
    simp only [Ex.valid, Bool.and_eq_true] at h
    simp only [fixPower, Ex.valid, h.1.1, fixStdDev_valid block e false false h.1.2 hs.1, fixStdDev_valid block x false true h.2 hs.2,
      Bool.and_true]
  | .other c l, s, b, h, hs => by
    simp only [fixPower, Ex.valid]; exact fixStdDevList_valid block l _ h hs

theorem fixStdDevList_valid (block : Nat → Nat → Bool) : ∀ (l : List Ex) (s : Nat → Bool), Ex.validList block s l = true →
    Ex.setsAreStatementsList block s l → Ex.validList block s (fixPowerList fixStdDevNode l) = true
  | [], _, _, _ => rfl
  | e :: l, s, h, hs => by
    simp only [Ex.validList, Bool.and_eq_true] at h
    simp only [fixPowerList, Ex.validList, fixStdDev_valid block e _ true h.1 hs.1, fixStdDevList_valid block l _ h.2 hs.2, Bool.and_true]
end

/-- **C60**: the update of a valid program is a valid program, provided that `set_std_dev()` is only called in statements.

Full statement: everywhere (`C60_fails_set_std_dev_expression`). -/
theorem C60_std_dev_valid_partial (block : Nat → Nat → Bool) (e : Ex) (h : e.valid block true = true)
    (hs : e.setsAreStatements block true) : (fixStdDev e).valid block true = true :=
  fixStdDev_valid block e true true h hs

/-- **C60** is false for calls of `set_std_dev()` in expressions: the valid program `f(x.set_std_dev(y))` is updated to
`f(x.std_dev = y)`, which is not valid. Idem for a part of the syntax that is not a statement (as in `lambda: x.set_std_dev(y)`). -/
theorem C60_fails_set_std_dev_expression (block : Nat → Nat → Bool) (f x y : String) (c : Nat) (hc : block c 0 = false) :
    let e := Ex.call (.attr (.name x) "set_std_dev") [.pos] [.name y]
    (Ex.call (.name f) [.pos] [e]).valid block true = true ∧
    (fixStdDev (Ex.call (.name f) [.pos] [e])).valid block true = false ∧
    (Ex.other c [e]).valid block true = true ∧ (fixStdDev (Ex.other c [e])).valid block true = false := by
  refine ⟨by simp [Ex.valid, Ex.validList], ?_, by simp [Ex.valid, Ex.validList], ?_⟩
  · simp [fixStdDev, fixPower, fixPowerList, fixStdDevNode, Ex.valid, Ex.validList]
  · simp [fixStdDev, fixPower, fixPowerList, fixStdDevNode, Ex.valid, Ex.validList, hc]

mutual
theorem fixStdDevs_valid (block : Nat → Nat → Bool) : ∀ (e : Ex) (s b : Bool), e.valid block s = true →
    (fixPower fixStdDevsNode b e).valid block s = true
  | .name _, _, _, _ => rfl
  | .str _, _, _, _ => rfl
  | .tuple l, s, b, h => by simp only [fixPower, Ex.valid]; exact fixStdDevsList_valid block l _ h
  | .attr e n, s, b, h => by simp only [fixPower, Ex.valid]; exact fixStdDevs_valid block e false false h
  | .call f k args, s, b, h => by
    simp only [Ex.valid, Bool.and_eq_true] at h
    have e1 := fixStdDevs_valid block f false false h.1
    have e2 := fixStdDevsList_valid block args _ h.2
    cases b
    · simp only [fixPower, Bool.false_eq_true, if_false, Ex.valid, e1, e2, Bool.and_true]
    · simp only [fixPower, if_true]
      rcases fixStdDevsNode_cases (fixPower fixStdDevsNode false f) k (fixPowerList fixStdDevsNode args) with hx | ⟨e, he, hx⟩
      · rw [hx]; simp [Ex.valid, e1, e2]
      · rw [hx]; rw [he] at e1; simpa [Ex.valid] using e1
  | .trail e c l, s, b, h => by
    simp only [Ex.valid, Bool.and_eq_true] at h
    simp only [fixPower, Ex.valid, fixStdDevs_valid block e false false h.1, fixStdDevsList_valid block l _ h.2, Bool.and_true]
  | .assign e n x, s, b, h => by
    simp only [Ex.valid, Bool.and_eq_true] at h
    simp only [fixPower, Ex.valid, h.1.1, fixStdDevs_valid block e false false h.1.2, fixStdDevs_valid block x false true h.2, Bool.and_true]
  | .assign2 e n m x, s, b, h => by
    simp only [Ex.valid, Bool.and_eq_true] at h
    simp only [fixPower, Ex.valid, h.1.1, fixStdDevs_valid block e false false h.1.2, fixStdDevs_valid block x false true h.2, Bool.and_true]
  | .other c l, s, b, h => by simp only [fixPower, Ex.valid]; exact fixStdDevsList_valid block l _ h

theorem fixStdDevsList_valid (block : Nat → Nat → Bool) : ∀ (l : List Ex) (s : Nat → Bool), Ex.validList block s l = true →
    Ex.validList block s (fixPowerList fixStdDevsNode l) = true
  | [], _, _ => rfl
  | e :: l, s, h => by
    simp only [Ex.validList, Bool.and_eq_true] at h
    simp only [fixPowerList, Ex.validList, fixStdDevs_valid block e _ true h.1, fixStdDevsList_valid block l _ h.2, Bool.and_true]
end

/-- **C60**: the update of `.std_devs()` in a valid program gives a valid program. -/
theorem C60_std_devs_valid (block : Nat → Nat → Bool) (e : Ex) (h : e.valid block true = true) :
    (fixStdDevs e).valid block true = true := fixStdDevs_valid block e true true h

/-! ### Keyword argument -/

/-- **C60**: for a variable `x`, `x.set_std_dev(value=y)` sets the standard deviation of `x`; its update `x.std_dev = value = y` does
the same, then also changes the variable of the program named `value`. -/
theorem C60_set_std_dev_keyword {F : Type} [PyMath F] {S : Type} (I : Interp (World F × S) (LVal F)) (x y : String) (u : UF F) (k : VarId)
    (a : LVal F) (hu : u.var = some k) (hx : ∀ w, I.name x w = (.ok (.unc u), w)) (hy : ∀ w, I.name y w = (.ok a, w)) :
    let e := Ex.call (.attr (.name x) "set_std_dev") [.kw "value"] [.name y]
    e.eval (withPackage I) = (withPackage I).setattr (.unc u) "std_dev" a ∧
    fixStdDev e = .assign2 (.name x) "std_dev" "value" (.name y) ∧
    (fixStdDev e).eval (withPackage I) =
      (e.eval (withPackage I)).bind fun r => (I.setname "value" a).bind fun _ w => (.ok r, w) := by
  have hx' : (withPackage I).name x = fun w => (.ok (.unc u), w) := funext hx
  have hy' : (withPackage I).name y = fun w => (.ok a, w) := funext hy
  have h1 : (Ex.call (.attr (.name x) "set_std_dev") [.kw "value"] [.name y]).eval (withPackage I) =
      (withPackage I).setattr (.unc u) "std_dev" a := by
    have ha : (withPackage I).attr (.unc u) "set_std_dev" = fun w => (.ok (.setStdDev u), w) := by
      funext w
      show (match u.var with | Option.none => _ | some _ => _) = _
      rw [hu]
    simp only [Ex.eval, Ex.evals, Run.all, hx', hy', Run.bind_pure, ha, List.zip_cons_cons, List.zip_nil_left]
    rfl
  refine ⟨h1, rfl, ?_⟩
  rw [h1]
  show (Ex.assign2 (.name x) "std_dev" "value" (.name y)).eval (withPackage I) = _
  simp only [Ex.eval, hx', hy', Run.bind_pure]
  rfl

/-- The names of a program: `x` (1±2), `y` (3), and a variable named `value`, which is the second part of the state. -/
def keywordNames : Interp (World ZN × ZN) (LVal ZN) where
  name s := fun w =>
    if s = "x" then (.ok (.unc { nom := .fin 1, lin := 0, var := some 0 }), w)
    else if s = "y" then (.ok (.float (.fin 3)), w)
    else (.ok (.float w.2), w)
  str _ := .none
  tuple _ := .none
  attr _ _ := fun w => (.error .attributeError, w)
  call _ _ := fun w => (.error .typeError, w)
  setattr _ _ _ := fun w => (.error .attributeError, w)
  setname n v := fun w => (.ok .none, match v.float? with
    | some z => if n = "value" then (w.1, z) else w
    | Option.none => w)
  trail _ r _ := r
  other _ l := (Run.all l).bind fun vs w => (.ok (vs.getLastD .none), w)

/-- **C60** is false for keyword arguments of `set_std_dev()`: after `x.set_std_dev(value=y)`, the variable named `value` of the program
is what it was before (5, in this example); after the updated code `x.std_dev = value = y`, it is `y` (3). -/
theorem C60_fails_set_std_dev_keyword :
    let e := Ex.call (.attr (.name "x") "set_std_dev") [.kw "value"] [.name "y"]
    let w : World ZN × ZN := ((World.ufloat ⟨[], [], []⟩ (.fin 1) (.fin 2) none).1, .fin 5)
    (e.eval (withPackage keywordNames) w).2.2 = .fin 5 ∧
    ((fixStdDev e).eval (withPackage keywordNames) w).2.2 = .fin 3 := by
  decide +kernel

/-- The hypotheses of `C60_set_std_dev_keyword`. -/
example := C60_set_std_dev_keyword keywordNames "x" "y" { nom := .fin 1, lin := 0, var := some 0 } 0 (.float (.fin 3)) rfl
  (fun _ => rfl) (fun _ => rfl)

/-- `x.set_std_dev(y); x.std_dev()` is a valid program where `set_std_dev()` is called in a statement, if `.other 0` is a list of lines. -/
example : legacyProgram.valid (fun c _ => c == 0) true = true ∧ legacyProgram.setsAreStatements (fun c _ => c == 0) true ∧
    (fixStdDev legacyProgram).valid (fun c _ => c == 0) true = true := by
  refine ⟨by decide +kernel, ?_, by decide +kernel⟩
  refine ⟨⟨trivial, ⟨trivial, trivial⟩, fun _ => rfl⟩, ⟨trivial, trivial, ?_⟩, trivial⟩
  rintro ⟨e, h⟩
  simp at h

end Unc
