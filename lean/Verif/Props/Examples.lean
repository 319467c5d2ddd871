import Verif.Lemmas.NRSum
import Verif.Lemmas.OpSpec

/-
A concrete history in exact arithmetic, used to show that the hypotheses of the theorems are met:
x = ufloat(3, 2), y = ufloat(5, 1), p = x*y, z = ufloat(0, 0, "exact"), r = z**0.5 (infinite
slope at 0: NaN derivative), and d = x - x.
-/

namespace Unc

set_option autoImplicit false

open NR

noncomputable def exCs : List (Cmd NR) :=
  [.ufloat (fin 3) (fin 2) none,
   .ufloat (fin 5) (fin 1) none,
   .binop .mul (.ref 0) (.ref 1),
   .ufloat (fin 0) (fin 0) (some "exact"),
   .binop .pow (.ref 3) (.const (.flt (fin (1/2)))),
   .binop .sub (.ref 0) (.ref 0)]

noncomputable def exState : SState NR :=
  ⟨[⟨fin 3, fin 2, none⟩, ⟨fin 5, fin 1, none⟩, ⟨fin 0, fin 0, some "exact"⟩], opDefs,
   [some (.unc ⟨fin 3, Lin.single 0, some 0⟩),
    some (.unc ⟨fin 5, Lin.single 1, some 1⟩),
    some (.unc ⟨fin 15, Lin.comb [(fin 5, Lin.single 0), (fin 3, Lin.single 1)], none⟩),
    some (.unc ⟨fin 0, Lin.single 2, some 2⟩),
    some (.unc ⟨fin 0, Lin.comb [(nan, Lin.single 2)], none⟩),
    some (.unc ⟨fin 0, Lin.comb [(fin 1, Lin.single 0), (fin (-1), Lin.single 0)], none⟩)]⟩

theorem floor_half : ⌊(1:ℝ)/2⌋ = 0 := by
  rw [Int.floor_eq_iff]; norm_num

theorem ex_reaches : Reaches exCs exState := by
  have b2 : specBadStd (fin 2) = false := by simp [specBadStd, PyFloat.ltb]
  have b1 : specBadStd (fin 1) = false := by simp [specBadStd, PyFloat.ltb]
  have b0 : specBadStd (fin 0) = false := by simp [specBadStd, PyFloat.ltb]
  have h0 : Reaches ([] : List (Cmd NR)) SState.init := Reaches.nil
  have h1 := (h0.ufloat (n := fin 3) none b2).2
  have h2 := (h1.ufloat (n := fin 5) none b1).2
  have r3 : specBinop .mul (.unc ⟨fin 3, Lin.single 0, some 0⟩) (.unc ⟨fin 5, Lin.single 1, some 1⟩) =
      .ok (.unc ⟨fin 15, Lin.comb [(fin 5, Lin.single 0), (fin 3, Lin.single 1)], none⟩) :=
    specBinop_unc_unc (z := fin 15) (a := fin 5) (b := fin 3)
      (by simp only [BinOp.onFloats, fin_mul]; norm_num) rfl rfl
  have h3 := (h2.binop (x := .ref 0) (y := .ref 1) rfl rfl r3 rfl).2
  have h4 := (h3.ufloat (n := fin 0) (some "exact") b0).2
  have r5 : specBinop .pow (.unc ⟨fin 0, Lin.single 2, some 2⟩) (.plain (.flt (fin (1/2)))) =
      .ok (.unc ⟨fin 0, Lin.comb [(nan, Lin.single 2)], none⟩) := by
    have ht : (Int.fract (2:ℝ)⁻¹ = 0) = False := by
      rw [← one_div, Int.fract, floor_half]; norm_num
    refine specBinop_unc_flt (z := fin 0) (a := nan) ?_ ?_
    · simp only [BinOp.onFloats, PyOps.pow, powReal]
      norm_num
    · simp [BinOp.deriv0, powDeriv0, nanIfException, PyFloat.eqb, PyOps.mod, PyFloat.nan]
      simp [ht]
  have h5 := (h4.binop (x := .ref 3) (y := .const (.flt (fin (1/2)))) rfl rfl r5 rfl).2
  have r6 : specBinop .sub (.unc ⟨fin 3, Lin.single 0, some 0⟩) (.unc ⟨fin 3, Lin.single 0, some 0⟩) =
      .ok (.unc ⟨fin 0, Lin.comb [(fin 1, Lin.single 0), (fin (-1), Lin.single 0)], none⟩) :=
    specBinop_unc_unc (z := fin 0) (a := fin 1) (b := fin (-1))
      (by simp only [BinOp.onFloats, fin_sub]; norm_num) rfl rfl
  exact (h5.binop (x := .ref 0) (y := .ref 0) rfl rfl r6 rfl).2

/-- Standard deviations of the variables of the example. -/
noncomputable def exStd (v : VarId) : ℝ := if v = 0 then 2 else if v = 1 then 1 else 0

theorem ex_std (v : VarId) : ((exState.vars[v]?).map (·.std)).getD 0 = fin (exStd v) := by
  match v with
  | 0 | 1 | 2 => simp [exState, exStd]
  | _ + 3 => simp [exState, exStd]

theorem ex_quantity {k : Nat} {q : SQ NR} (h : exState.env[k]? = some (some (.unc q))) :
    Quantity exCs (.ref k) q.nom q.grad (fun v => fin (exStd v)) := by
  have := ex_reaches.quantity_exists (x := .ref k) (q := q) (by simp [Arg.sevalUnc, Arg.seval, h])
  simpa only [ex_std] using this

/-- `x` -/
theorem ex_x : Quantity exCs (.ref 0) (fin 3) (Lin.single 0) (fun v => fin (exStd v)) :=
  ex_quantity (k := 0) (q := ⟨fin 3, Lin.single 0, some 0⟩) rfl

/-- `y` -/
theorem ex_y : Quantity exCs (.ref 1) (fin 5) (Lin.single 1) (fun v => fin (exStd v)) :=
  ex_quantity (k := 1) (q := ⟨fin 5, Lin.single 1, some 1⟩) rfl

/-- Derivatives of `p = x*y` -/
noncomputable def exP (v : VarId) : Option NR :=
  if v = 0 then some (fin 5) else if v = 1 then some (fin 3) else none

/-- `p = x*y` -/
theorem ex_p : Quantity exCs (.ref 2) (fin 15) exP (fun v => fin (exStd v)) := by
  have h := ex_quantity (k := 2) (q := ⟨fin 15, Lin.comb [(fin 5, Lin.single 0), (fin 3, Lin.single 1)],
    none⟩) rfl
  have e : Lin.comb [(fin 5, Lin.single 0), (fin 3, Lin.single 1)] = exP := by
    funext v
    simp only [Lin.comb, Lin.add, Lin.smul, Lin.single, exP, Lin.zero]
    by_cases h0 : v = 0
    · simp [h0, optAdd]
    · by_cases h1 : v = 1 <;> simp [h0, h1, optAdd]
  rw [← e]; exact h

/-- Derivatives of `r = z**0.5` at `z = 0` -/
noncomputable def exR (v : VarId) : Option NR := if v = 2 then some nan else none

/-- `r = z**0.5` -/
theorem ex_r : Quantity exCs (.ref 4) (fin 0) exR (fun v => fin (exStd v)) := by
  have h := ex_quantity (k := 4) (q := ⟨fin 0, Lin.comb [(nan, Lin.single 2)], none⟩) rfl
  have e : Lin.comb [(nan, Lin.single 2)] = exR := by
    funext v
    simp only [Lin.comb, Lin.add, Lin.smul, Lin.single, exR, Lin.zero]
    by_cases h0 : v = 2 <;> simp [h0, optAdd]
  rw [← e]; exact h

end Unc
