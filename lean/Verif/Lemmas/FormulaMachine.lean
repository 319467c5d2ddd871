import Verif.Lemmas.FormulaRounding

/-
The formulas of the results of a program (`Spec/Formula.lean`), compared to the chain rule applied to the partial
derivatives that the program calculates (`Spec/Rounding.lean`).
-/

namespace Unc

set_option linter.unusedSectionVars false
set_option autoImplicit false

variable {F : Type} [PyMath F] [RoundedOps F]

local notation "𝓊" => (Rounded.u F)
local notation "𝒽" => (Rounded.η F)

/-- Derivatives of an operand. -/
def RVal.grad : RVal F → Grad
  | .unc q => q.grad
  | .plain _ => Grad.zero

theorem exactCall_unop {op : UnOp} {q : RQ F} {r : RVal F} (h : exactCall op.wrapDef [.unc q] [] = .ok r) :
    ∃ y c, op.onFloat q.nom = .ok y ∧ op.deriv q.nom = .ok c ∧
      r = .unc { nom := y, grad := Grad.comb [(c, q.grad)], var := none } := by
  simp only [exactCall, UnOp.wrapDef, List.map, RVal.nominal, UnOp.func] at h
  cases hy : op.onFloat q.nom with
  | error e => rw [hy] at h; cases h
  | ok y =>
    rw [hy] at h
    simp only [Except.map, List.all, RVal.isUnc, PyVal.floatLike, exactPosTerms, exactKwTerms, WrapDef.specPos, lambda1,
      List.getElem?_cons_zero] at h
    cases hc : op.deriv q.nom with
    | error e => rw [hc] at h; cases h
    | ok c =>
      rw [hc] at h
      simp at h
      cases h
      exact ⟨y, c, rfl, rfl, rfl⟩

/-- The operators +, -, *, /. -/
def BinOp.IsArith (op : BinOp) : Prop := op = .add ∨ op = .sub ∨ op = .mul ∨ op = .truediv

theorem BinOp.IsArith.func {op : BinOp} (h : op.IsArith) : (op.func : PyFn F) = op.method ∧ (op.rfunc : PyFn F) = op.rmethod := by
  rcases h with rfl | rfl | rfl | rfl <;> exact ⟨rfl, rfl⟩

theorem BinOp.IsArith.onFloats {op : BinOp} (h : op.IsArith) (x y : F) :
    (∃ e, op.onFloats x y = .error e) ∨ ∃ z, op.onFloats x y = .ok (.flt z) := by
  rcases h with rfl | rfl | rfl | rfl
  · exact Or.inr ⟨_, rfl⟩
  · exact Or.inr ⟨_, rfl⟩
  · exact Or.inr ⟨_, rfl⟩
  · simp only [BinOp.onFloats]
    cases PyFloat.truediv x y with
    | error e => exact Or.inl ⟨e, rfl⟩
    | ok z => exact Or.inr ⟨z, rfl⟩

/-- Numbers with uncertainties, or floats. -/
inductive RVal.Has : RVal F → F → Prop
  | unc (q : RQ F) : RVal.Has (.unc q) q.nom
  | flt (c : F) : RVal.Has (.plain (.flt c)) c

theorem exactCall_two {df : WrapDef F} {d0 d1 : F → F → PyRes F}
    (hd : df.derivativesArgs = .finite [some (lambda2 d0), some (lambda2 d1)]) {a b r : RVal F} {x y : F} (ha : a.Has x)
    (hb : b.Has y) (hu : (a.isUnc || b.isUnc) = true)
    (hf : (∃ e, df.f [.flt x, .flt y] [] = .error e) ∨ ∃ z, df.f [.flt x, .flt y] [] = .ok (.flt z))
    (h : exactCall df [a, b] [] = .ok r) :
    ∃ z c d, df.f [.flt x, .flt y] [] = .ok (.flt z) ∧ (a.isUnc = true → d0 x y = .ok c) ∧
      (b.isUnc = true → d1 x y = .ok d) ∧
      r = .unc { nom := z, grad := Grad.add (Grad.smul c a.grad) (Grad.smul d b.grad), var := none } := by
  have hz0 : ∀ c : F, Grad.smul c Grad.zero = Grad.zero := fun c => rfl
  have s0 : df.specPos 0 = lambda2 d0 := by simp [WrapDef.specPos, hd]
  have s1 : df.specPos 1 = lambda2 d1 := by simp [WrapDef.specPos, hd]
  have ea : a.nominal = .flt x := by cases ha <;> rfl
  have eb : b.nominal = .flt y := by cases hb <;> rfl
  simp only [exactCall, List.map, ea, eb] at h
  rcases hf with ⟨e, he⟩ | ⟨z, he⟩
  · rw [he] at h; cases h
  rw [he] at h
  have hu' : (!a.isUnc && !b.isUnc) = false := by revert hu; cases a.isUnc <;> cases b.isUnc <;> simp
  simp only [List.all, Bool.and_true, hu', Bool.false_eq_true, if_false, PyVal.floatLike, Bool.not_true, exactKwTerms,
    PyVal.toFloat] at h
  cases ha with
  | unc q =>
    simp only [exactPosTerms, s0, lambda2] at h
    cases hc : d0 q.nom y with
    | error e => rw [hc] at h; cases h
    | ok c =>
      rw [hc] at h
      cases hb with
      | unc q' =>
        simp only [exactPosTerms, Nat.zero_add, s1, lambda2] at h
        cases hd : d1 q.nom q'.nom with
        | error e => rw [hd] at h; cases h
        | ok d =>
          rw [hd] at h
          cases h
          refine ⟨z, c, d, he, fun _ => rfl, fun _ => rfl, ?_⟩
          simp [Grad.comb, RVal.grad]
      | flt y =>
        simp only [exactPosTerms] at h
        cases h
        refine ⟨z, c, 0, he, fun _ => rfl, fun h => (by cases h), ?_⟩
        simp [Grad.comb, RVal.grad, hz0]
  | flt x =>
    cases hb with
    | flt y => cases hu
    | unc q =>
      simp only [exactPosTerms, Nat.zero_add, s1, lambda2] at h
      cases hd : d1 x q.nom with
      | error e => rw [hd] at h; cases h
      | ok d =>
        rw [hd] at h
        cases h
        refine ⟨z, 0, d, he, fun h => (by cases h), fun _ => rfl, ?_⟩
        simp [Grad.comb, RVal.grad, hz0]

theorem exactBinop_two {op : BinOp} {V : PyRes (PyVal F)} {a b r : RVal F} {x y : F} (ha : a.Has x) (hb : b.Has y)
    (hm : (op.wrapDef : WrapDef F).f [.flt x, .flt y] [] = V) (hm' : (op.rwrapDef : WrapDef F).f [.flt y, .flt x] [] = V)
    (ho : (∃ e, V = .error e) ∨ ∃ z, V = .ok (.flt z))
    (hu : (a.isUnc || b.isUnc) = true) (h : exactBinop op a b = .ok r) :
    ∃ z c d, V = .ok (.flt z) ∧ (a.isUnc = true → op.deriv0 x y = .ok c) ∧
      (b.isUnc = true → op.deriv1 x y = .ok d) ∧
      r = .unc { nom := z, grad := Grad.add (Grad.smul c a.grad) (Grad.smul d b.grad), var := none } := by
  cases hau : a.isUnc with
  | true =>
    have hf := ho
    rw [← hm] at hf
    have key : ∀ r', exactCall op.wrapDef [a, b] [] = .ok r' →
      ∃ z c d, V = .ok (.flt z) ∧ (a.isUnc = true → op.deriv0 x y = .ok c) ∧
      (b.isUnc = true → op.deriv1 x y = .ok d) ∧
      r' = .unc { nom := z, grad := Grad.add (Grad.smul c a.grad) (Grad.smul d b.grad), var := none } := by
      intro r' hr'
      obtain ⟨z, c, d, k⟩ := exactCall_two (d0 := op.deriv0) (d1 := op.deriv1) rfl ha hb hu hf hr'
      rw [hm] at k
      exact ⟨z, c, d, k⟩
    rw [← hau]
    cases a with
    | plain v => cases hau
    | unc q =>
      simp only [exactBinop] at h
      generalize hr : exactCall op.wrapDef [.unc q, b] [] = r' at h key
      cases r' with
      | error e => cases h
      | ok r' =>
        obtain ⟨z, c, d, k1, k2, k3, rfl⟩ := key r' rfl
        cases h
        exact ⟨z, c, d, k1, k2, k3, rfl⟩
  | false =>
    have hf := ho
    rw [← hm'] at hf
    have hub : b.isUnc = true := by rw [hau] at hu; exact hu
    have key : ∀ r', exactCall op.rwrapDef [b, a] [] = .ok r' →
      ∃ z c d, V = .ok (.flt z) ∧ (b.isUnc = true → op.deriv1 x y = .ok c) ∧
      (a.isUnc = true → op.deriv0 x y = .ok d) ∧
      r' = .unc { nom := z, grad := Grad.add (Grad.smul c b.grad) (Grad.smul d a.grad), var := none } := by
      intro r' hr'
      obtain ⟨z, c, d, k⟩ := exactCall_two (d0 := fun y x => op.deriv1 x y) (d1 := fun y x => op.deriv0 x y) rfl hb ha
        (by rw [hub]; rfl) hf hr'
      rw [hm'] at k
      exact ⟨z, c, d, k⟩
    rw [← hau]
    cases a with
    | unc q => cases hau
    | plain v =>
      cases b with
      | plain v => cases hub
      | unc q =>
        simp only [exactBinop] at h
        generalize hr : exactCall op.rwrapDef [.unc q, .plain v] [] = r' at h key
        cases r' with
        | error e => cases h
        | ok r' =>
          obtain ⟨z, c, d, k1, k2, k3, rfl⟩ := key r' rfl
          cases h
          exact ⟨z, d, c, k1, k3, k2, by rw [Grad.add_comm]⟩

theorem exactBinop_arith {op : BinOp} (hop : op.IsArith) {a b r : RVal F} {x y : F} (ha : a.Has x) (hb : b.Has y)
    (hu : (a.isUnc || b.isUnc) = true) (h : exactBinop op a b = .ok r) :
    ∃ z c d, op.onFloats x y = .ok (.flt z) ∧ (a.isUnc = true → op.deriv0 x y = .ok c) ∧
      (b.isUnc = true → op.deriv1 x y = .ok d) ∧
      r = .unc { nom := z, grad := Grad.add (Grad.smul c a.grad) (Grad.smul d b.grad), var := none } := by
  refine exactBinop_two (V := op.onFloats x y) ha hb ?_ ?_ (hop.onFloats x y) hu h
  · have : (op.wrapDef : WrapDef F).f = op.method := hop.func.1
    rw [this]; rfl
  · have : (op.rwrapDef : WrapDef F).f = op.rmethod := hop.func.2
    rw [this]; rfl

/-- `x**y` on floats, without complex results. -/
def realPow (x y : F) : PyRes (PyVal F) :=
  match PyOps.pow x y with
  | .error e => .error e
  | .ok (.real z) => .ok (.flt z)
  | .ok .complex => .error .valueError

theorem pow_func (x y : F) : BinOp.func .pow [.flt x, .flt y] [] = realPow x y := by
  simp only [BinOp.func, noComplexResult, BinOp.method, BinOp.onFloats, realPow]
  cases PyOps.pow x y with
  | error e => rfl
  | ok r => cases r <;> rfl

theorem pow_rfunc (x y : F) : BinOp.rfunc .pow [.flt y, .flt x] [] = realPow x y := by
  simp only [BinOp.rfunc, noComplexResult, BinOp.rmethod, BinOp.onFloats, realPow]
  cases PyOps.pow x y with
  | error e => rfl
  | ok r => cases r <;> rfl

theorem realPow_or (x y : F) : (∃ e, realPow x y = .error e) ∨ ∃ z, realPow x y = .ok (.flt z) := by
  unfold realPow
  cases PyOps.pow x y with
  | error e => exact Or.inl ⟨e, rfl⟩
  | ok r =>
    cases r with
    | real z => exact Or.inr ⟨z, rfl⟩
    | complex => exact Or.inl ⟨.valueError, rfl⟩

theorem exactBinop_pow {a b r : RVal F} {x y : F} (ha : a.Has x) (hb : b.Has y)
    (hu : (a.isUnc || b.isUnc) = true) (h : exactBinop .pow a b = .ok r) :
    ∃ z c d, realPow x y = .ok (.flt z) ∧
      (a.isUnc = true → BinOp.deriv0 .pow x y = .ok c) ∧ (b.isUnc = true → BinOp.deriv1 .pow x y = .ok d) ∧
      r = .unc { nom := z, grad := Grad.add (Grad.smul c a.grad) (Grad.smul d b.grad), var := none } :=
  exactBinop_two (V := realPow x y) ha hb (pow_func x y) (pow_rfunc x y) (realPow_or x y) hu h

theorem exactCall_fn1 {df : WrapDef F} {q : RQ F} {r : RVal F} (h : exactCall df [.unc q] [] = .ok r) :
    r = .plain .notImpl ∨ ∃ y c, df.f [.flt q.nom] [] = .ok (.flt y) ∧ df.specPos 0 [.flt q.nom] [] = .ok c ∧
      r = .unc { nom := y, grad := Grad.comb [(c, q.grad)], var := none } := by
  simp only [exactCall, List.map, RVal.nominal] at h
  cases hy : df.f [.flt q.nom] [] with
  | error e => rw [hy] at h; cases h
  | ok v =>
    rw [hy] at h
    cases hc : df.specPos 0 [.flt q.nom] [] with
    | error e =>
      cases v <;> simp [RVal.isUnc, PyVal.floatLike, exactPosTerms, hc] at h
      · exact Or.inl h.symm
      · exact Or.inl h.symm
    | ok c =>
      cases v <;> simp [RVal.isUnc, PyVal.floatLike, exactPosTerms, exactKwTerms, hc, PyVal.toFloat] at h
      · exact Or.inr ⟨_, c, rfl, rfl, h.symm⟩
      · exact Or.inl h.symm
      · exact Or.inl h.symm

theorem exactCall_fn2 {df : WrapDef F} {a b r : RVal F} {x y : F} (ha : a.Has x)
    (hb : b.Has y) (hu : (a.isUnc || b.isUnc) = true) (h : exactCall df [a, b] [] = .ok r) :
    r = .plain .notImpl ∨ ∃ z c d, df.f [.flt x, .flt y] [] = .ok (.flt z) ∧
      (a.isUnc = true → df.specPos 0 [.flt x, .flt y] [] = .ok c) ∧
      (b.isUnc = true → df.specPos 1 [.flt x, .flt y] [] = .ok d) ∧
      r = .unc { nom := z, grad := Grad.add (Grad.smul c a.grad) (Grad.smul d b.grad), var := none } := by
  have hz0 : ∀ c : F, Grad.smul c Grad.zero = Grad.zero := fun c => rfl
  have ea : a.nominal = .flt x := by cases ha <;> rfl
  have eb : b.nominal = .flt y := by cases hb <;> rfl
  simp only [exactCall, List.map, ea, eb] at h
  have hu' : (!a.isUnc && !b.isUnc) = false := by revert hu; cases a.isUnc <;> cases b.isUnc <;> simp
  cases hv : df.f [.flt x, .flt y] [] with
  | error e => rw [hv] at h; cases h
  | ok v =>
    rw [hv] at h
    simp only [List.all, Bool.and_true, hu', Bool.false_eq_true, if_false] at h
    by_cases hfl : v.floatLike = true
    swap
    · simp only [hfl, Bool.not_false, if_true, Except.ok.injEq] at h
      exact Or.inl h.symm
    right
    simp only [hfl, Bool.not_true, Bool.false_eq_true, if_false, exactKwTerms] at h
    have fin : ∀ l : List (F × Grad), (match v.toFloat with
        | .error e => .error e
        | .ok x => .ok (.unc { nom := x, grad := Grad.comb l, var := none }) : PyRes (RVal F)) = .ok r →
        ∃ z, v = .flt z ∧ r = .unc { nom := z, grad := Grad.comb l, var := none } := by
      intro l hl
      cases v with
      | flt z => cases hl; exact ⟨z, rfl, rfl⟩
      | cplx => cases hl
      | other c => cases hl
      | notImpl => cases hl
    cases ha with
    | unc q =>
      simp only [exactPosTerms] at h
      cases hc : df.specPos 0 [.flt q.nom, .flt y] [] with
      | error e => rw [hc] at h; cases h
      | ok c =>
        rw [hc] at h
        cases hb with
        | unc q' =>
          simp only [exactPosTerms, Nat.zero_add] at h
          cases hd : df.specPos 1 [.flt q.nom, .flt q'.nom] [] with
          | error e => rw [hd] at h; cases h
          | ok d =>
            rw [hd] at h
            obtain ⟨z, rfl, rfl⟩ := fin _ h
            refine ⟨z, c, d, rfl, fun _ => rfl, fun _ => rfl, ?_⟩
            simp [Grad.comb, RVal.grad]
        | flt y =>
          simp only [exactPosTerms] at h
          obtain ⟨z, rfl, rfl⟩ := fin _ h
          refine ⟨z, c, 0, rfl, fun _ => rfl, fun h => (by cases h), ?_⟩
          simp [Grad.comb, RVal.grad, hz0]
    | flt x =>
      cases hb with
      | flt y => cases hu
      | unc q =>
        simp only [exactPosTerms, Nat.zero_add] at h
        cases hd : df.specPos 1 [.flt x, .flt q.nom] [] with
        | error e => rw [hd] at h; cases h
        | ok d =>
          rw [hd] at h
          obtain ⟨z, rfl, rfl⟩ := fin _ h
          refine ⟨z, 0, d, rfl, fun h => (by cases h), fun _ => rfl, ?_⟩
          simp [Grad.comb, RVal.grad, hz0]

/-! ### States -/

/-- All the nominal values are finite. -/
def RState.AllFin (s : RState F) : Prop := ∀ (k : Nat) (q : RQ F), s.env[k]? = some (some (RVal.unc q)) → Rounded.Fin q.nom

/-- `n` gives the nominal values of the variables. -/
def PointOf (n : VarId → ℝ) (vars : List (RVar F)) : Prop := ∀ (v : Nat) (cell : RVar F), vars[v]? = some cell → n v = Rounded.val cell.nom

/-- A result, and its formula. -/
structure ResultOK (s : RState F) (q : RQ F) (φ : Formula) : Prop where
  cst : φ.isConst = false
  var : ∀ v, q.var = some v → φ = .var v
  near : s.AllFin → ∀ n, PointOf n s.vars → φ.Safe 𝓊 𝒽 n → FNear n q.nom q.grad φ

/-- Relation between the two specifications. -/
structure FRel (s : RState F) (f : FState F) : Prop where
  vars : f.vars = s.vars
  len : f.env.length = s.env.length
  var : ∀ (k : Nat) (v : VarId), f.env[k]? = some (some (Formula.var v)) → ∃ q : RQ F, s.env[k]? = some (some (RVal.unc q)) ∧ q.var = some v
  ok : ∀ (k : Nat) (a : RVal F), s.env[k]? = some (some a) → ∃ (q : RQ F) (φ : Formula), a = RVal.unc q ∧ f.env[k]? = some (some φ) ∧ ResultOK s q φ

theorem getElem?_snoc {α : Type} (l : List α) (x : α) (k : Nat) :
    (l ++ [x])[k]? = if k = l.length then some x else l[k]? := by
  by_cases h : k < l.length
  · rw [List.getElem?_append_left h, if_neg (by omega)]
  · rw [List.getElem?_append_right (by omega)]
    by_cases h' : k = l.length
    · simp [h']
    · rw [if_neg h', List.getElem?_eq_none (by simp; omega), List.getElem?_eq_none (by omega)]

/-- Everything that is known of the results remains true after other commands. -/
theorem ResultOK.grows {s s' : RState F} {q : RQ F} {φ : Formula} (h : ResultOK s q φ)
    (hv : ∀ n, PointOf n s'.vars → PointOf n s.vars)
    (he : ∀ (k : Nat) (q : RQ F), s.env[k]? = some (some (RVal.unc q)) → s'.env[k]? = some (some (RVal.unc q))) : ResultOK s' q φ :=
  ⟨h.cst, h.var, fun hf n hn hs => h.near (fun k q hq => hf k q (he k q hq)) n (hv n hn) hs⟩

theorem FRel.push {s : RState F} {f : FState F} (h : FRel s f) {vars : List (RVar F)} {o : Option (RVal F)}
    {fo : Option Formula} (hv : ∀ n, PointOf n vars → PointOf n s.vars)
    (hvar : ∀ v, fo = some (.var v) → ∃ q, o = some (.unc q) ∧ q.var = some v)
    (ho : ∀ a, o = some a → ∃ q φ, a = .unc q ∧ fo = some φ ∧ ResultOK { s with vars := vars, env := s.env ++ [o] } q φ) :
    FRel { s with vars := vars, env := s.env ++ [o] } ⟨vars, f.env ++ [fo]⟩ := by
  refine ⟨rfl, by simp [h.len], ?_, ?_⟩
  · intro k v hk
    simp only [getElem?_snoc, h.len] at hk ⊢
    by_cases e : k = s.env.length
    · simp only [e, if_true, Option.some.injEq] at hk ⊢
      exact hvar v hk
    · simp only [e, if_false] at hk ⊢
      exact h.var k v hk
  · intro k a hk
    simp only [getElem?_snoc, h.len] at hk ⊢
    by_cases e : k = s.env.length
    · simp only [e, if_true, Option.some.injEq] at hk ⊢
      exact ho a hk
    · simp only [e, if_false] at hk ⊢
      obtain ⟨q, φ, h1, h2, h3⟩ := h.ok k a hk
      refine ⟨q, φ, h1, h2, h3.grows hv fun j p hj => ?_⟩
      have hlt : j < s.env.length := by
        by_contra hlt
        rw [List.getElem?_eq_none (by omega)] at hj
        cases hj
      rw [List.getElem?_append_left hlt]
      exact hj

theorem FRel.pushNone {s : RState F} {f : FState F} (h : FRel s f) {fo : Option Formula} (hvar : ∀ v, fo ≠ some (.var v)) :
    FRel (s.skip 1) { f with env := f.env ++ [fo] } := by
  have := h.push (vars := s.vars) (o := none) (fo := fo) (fun n h => h) (fun v hv => absurd hv (hvar v)) (fun a ha => by cases ha)
  obtain ⟨fv, fe⟩ := f
  obtain rfl : fv = s.vars := h.vars
  exact this

/-- An argument of an operator. -/
theorem FRel.operand {s : RState F} {f : FState F} (h : FRel s f) {x : Arg F} (hx : x.IsOperand) {a : RVal F}
    (ha : x.reval s.env = some a) :
    ∃ c φ, a.Has c ∧ x.formula f.env = some φ ∧ (a.isUnc = true → φ.isConst = false) ∧
      (s.AllFin → ∀ n, PointOf n s.vars → φ.Safe 𝓊 𝒽 n → FNear n c a.grad φ) := by
  cases x with
  | ref k =>
    simp only [Arg.reval] at ha
    rw [Option.join_eq_some_iff] at ha
    obtain ⟨q, φ, rfl, h2, h3⟩ := h.ok k a ha
    exact ⟨q.nom, φ, .unc q, by simp [Arg.formula, h2], fun _ => h3.cst, h3.near⟩
  | const v =>
    cases v <;> first | exact hx.elim | skip
    rename_i c
    cases ha
    exact ⟨c, _, .flt c, rfl, fun h => (by cases h), fun _ n _ _ => FNear.const n hx⟩

theorem UnOp.formula_var {op : UnOp} {φ : Formula} {v : VarId} : op.formula φ ≠ some (.var v) := by
  cases op <;> simp [UnOp.formula]

theorem BinOp.formula_var {op : BinOp} {φ ψ : Formula} {v : VarId} : op.formula φ ψ ≠ some (.var v) := by
  cases op <;> simp [BinOp.formula]

theorem FnSpecs.powFormula_var {S : FnSpecs} {φ ψ : Formula} {v : VarId} : S.powFormula φ ψ ≠ some (.var v) := by
  cases ψ <;> simp [FnSpecs.powFormula]

theorem FnSpecs.binop_var {S : FnSpecs} {op : BinOp} {φ ψ : Formula} {v : VarId} : S.binop op φ ψ ≠ some (.var v) := by
  cases op
  case pow => exact FnSpecs.powFormula_var
  all_goals simp [FnSpecs.binop, BinOp.formula]

theorem FnSpecs.powFormula_two {S : FnSpecs} {φ ψ : Formula} (h : ψ.isConst = false) :
    S.powFormula φ ψ = S.pow.map fun s => .fn2 s φ ψ := by
  cases ψ <;> first | rfl | cases h

theorem FRel.reads {s : RState F} {f : FState F} (h : FRel s f) {z : Arg F} {t : RVal F} (hz : z.IsRef)
    (ht : z.reval s.env = some t) : t.isUnc = true := by
  cases z with
  | const v => exact hz.elim
  | ref k =>
    obtain ⟨q, φ, rfl, -⟩ := h.ok k t (Option.join_eq_some_iff.1 ht)
    rfl

theorem FRel.step_pow {S : FnSpecs} {s : RState F} {f : FState F} (h : FRel s f) (hS : S.Right s.fns) {x y : Arg F}
    (hc : IsPower S x y) : FRel (s.step (.binop .pow x y)) (f.step S (.binop .pow x y)) := by
  have hox : x.IsOperand ∧ y.IsOperand := by
    unfold IsPower at hc
    split at hc
    · exact ⟨trivial, hc.1⟩
    · exact ⟨hc.1, trivial⟩
    · exact ⟨trivial, trivial⟩
    · exact hc.elim
  simp only [RState.step, FState.step]
  have hnv : ∀ v, ((x.formula f.env).bind fun a => (y.formula f.env).bind (S.binop .pow a)) ≠ some (.var v) := by
    intro v
    cases x.formula f.env with
    | none => simp
    | some φ =>
      cases y.formula f.env with
      | none => simp
      | some ψ => exact FnSpecs.powFormula_var
  cases hx : x.reval s.env with
  | none => exact h.pushNone hnv
  | some a =>
    cases hy : y.reval s.env with
    | none => exact h.pushNone hnv
    | some b =>
      simp only
      by_cases hu : (a.isUnc || b.isUnc) = true
      swap
      · rw [if_neg hu]
        exact h.pushNone hnv
      rw [if_pos hu]
      cases hr : exactBinop .pow a b with
      | error e => exact h.pushNone hnv
      | ok r =>
        obtain ⟨cx, φ, k1, k2, k3, k4⟩ := h.operand hox.1 hx
        obtain ⟨cy, ψ, l1, l2, l3, l4⟩ := h.operand hox.2 hy
        obtain ⟨z, c, d, h1, h2, h3, rfl⟩ := exactBinop_pow k1 l1 hu hr
        have hread := @FRel.reads F _ _ s f h
        simp only [RState.bind]
        obtain ⟨fv, fe⟩ := f
        obtain rfl : fv = s.vars := h.vars
        refine h.push (fun n h => h) (fun v hv => absurd hv (hnv v)) ?_
        rintro a' ha
        cases ha
        have k2' : x.formula fe = some φ := k2
        have l2' : y.formula fe = some ψ := l2
        simp only [k2', l2', Option.bind_some, FnSpecs.binop]
        have hfin : ∀ {o : Option (RVal F)}, ({ s with vars := s.vars, env := s.env ++ [o] } : RState F).AllFin → s.AllFin :=
          fun hf j p hj => hf j p (by
            rw [List.getElem?_append_left (List.getElem?_eq_some_iff.1 hj).1]; exact hj)
        have hg : ∀ {t : RVal F}, t.grad ≠ Grad.zero → t.isUnc = true := by
          intro t ht
          cases t with
          | unc q => rfl
          | plain v => exact absurd rfl ht
        -- an exponent with uncertainty
        have two : y.IsRef → S.pow.isSome → ∃ q χ, (RVal.unc ⟨z, Grad.add (Grad.smul c a.grad) (Grad.smul d b.grad), none⟩ :
            RVal F) = .unc q ∧ S.powFormula φ ψ = some χ ∧ ResultOK { s with vars := s.vars, env := s.env ++
              [some (.unc ⟨z, Grad.add (Grad.smul c a.grad) (Grad.smul d b.grad), none⟩)] } q χ := by
          intro hyr hp
          obtain ⟨sp, hsp⟩ := Option.isSome_iff_exists.1 hp
          have hcst := l3 (hread hyr hy)
          rw [FnSpecs.powFormula_two hcst, hsp]
          refine ⟨_, _, rfl, rfl, rfl, fun v hv => (by cases hv), fun hf n hn hs => ?_⟩
          exact (k4 (hfin hf) n hn hs.1).fn2 n (hS.pow sp hsp) (l4 (hfin hf) n hn hs.2.1) hs
            ((pow_func cx cy).trans h1) (fun h => h2 (hg h)) (fun h => h3 (hg h)) rfl (hf s.env.length _ (by simp))
        unfold IsPower at hc
        split at hc
        · -- an exponent without uncertainty
          rename_i e
          obtain ⟨sp, hsp⟩ := Option.isSome_iff_exists.1 hc.2
          cases hy
          cases l1
          obtain rfl : ψ = .const (Rounded.val cy) := by cases l2'; rfl
          simp only [FnSpecs.powFormula, hsp, Option.map_some]
          refine ⟨_, _, rfl, rfl, rfl, fun v hv => (by cases hv), fun hf n hn hs => ?_⟩
          have hau : a.isUnc = true := hread (z := .ref _) trivial hx
          have hzf : Rounded.Fin z := by
            refine hf s.env.length ⟨z, Grad.add (Grad.smul c a.grad) (Grad.smul d (RVal.grad (RVal.plain (.flt cy) : RVal F))), none⟩ ?_
            rw [List.getElem?_append_right le_rfl, Nat.sub_self]
            rfl
          have := (k4 (hfin hf) n hn hs.1).fn1 n (hS.powc cy sp hc.1 hsp) hs (y := z) (c := c) ((pow_func cx cy).trans h1)
            (by simpa [powConst, WrapDef.specPos, lambda1] using h2 hau) hzf
          have e2 : Grad.add (Grad.smul c a.grad) (Grad.smul d (RVal.grad (RVal.plain (.flt cy) : RVal F))) =
              Grad.comb [(c, a.grad)] := by
            have hz0 : Grad.smul d Grad.zero = Grad.zero := rfl
            simp [Grad.comb, RVal.grad, hz0]
          rw [e2]
          exact this
        · exact two trivial hc.2
        · exact two trivial hc
        · exact hc.elim

theorem FRel.step {S : FnSpecs} {s : RState F} {f : FState F} (h : FRel s f) (hS : S.Right s.fns) (c : Cmd F)
    (hc : c.IsCalc S) : FRel (s.step c) (f.step S c) := by
  cases c with
  | ufloat nom std tag =>
    simp only [RState.step, FState.step]
    by_cases hb : specBadStd std
    · simp only [hb, if_true]
      exact h.pushNone (by simp)
    · simp only [hb, if_false]
      obtain ⟨fv, fe⟩ := f
      obtain rfl : fv = s.vars := h.vars
      refine h.push ?_ ?_ ?_
      · intro n hn v cell hv
        refine hn v cell ?_
        rw [List.getElem?_append_left (List.getElem?_eq_some_iff.1 hv).1]
        exact hv
      · rintro v hv
        cases hv
        exact ⟨_, rfl, rfl⟩
      · rintro a ha
        cases ha
        refine ⟨_, _, rfl, rfl, rfl, fun v hv => by cases hv; rfl, fun hf n hn _ => ?_⟩
        refine FNear.var n ?_ ?_
        · exact hf s.env.length _ (by simp)
        · exact hn s.vars.length ⟨nom, std⟩ (by simp)
  | unop op x =>
    simp only [RState.step, FState.step]
    have hnv : ∀ v, (x.formula f.env).bind op.formula ≠ some (.var v) := by
      intro v
      cases x.formula f.env with
      | none => simp
      | some φ => exact UnOp.formula_var
    cases hx : x.revalUnc s.env with
    | none => exact h.pushNone hnv
    | some q =>
      simp only
      cases hr : exactCall op.wrapDef [.unc q] [] with
      | error e => exact h.pushNone hnv
      | ok r =>
        obtain ⟨y, c, h1, h2, rfl⟩ := exactCall_unop hr
        simp only [RState.bind]
        obtain ⟨fv, fe⟩ := f
        obtain rfl : fv = s.vars := h.vars
        refine h.push (fun n h => h) (fun v hv => absurd hv (hnv v)) ?_
        rintro a ha
        cases ha
        have hx' : ∃ k : Nat, x = .ref k ∧ s.env[k]? = some (some (RVal.unc q)) := by
          cases x with
          | const v => simp [Arg.revalUnc, Arg.reval] at hx
          | ref k =>
            refine ⟨k, rfl, ?_⟩
            simp only [Arg.revalUnc, Arg.reval] at hx
            split at hx
            · rename_i q' hq
              cases hx
              exact Option.join_eq_some_iff.1 hq
            · cases hx
        obtain ⟨k, rfl, hk⟩ := hx'
        obtain ⟨q', φ, e, h4, h5⟩ := h.ok k _ hk
        cases e
        simp only [Arg.formula, h4, Option.join_some, Option.bind_some]
        obtain ⟨ψ, hψ⟩ : ∃ ψ, op.formula φ = some ψ := by
          rcases hc with rfl | rfl | rfl <;> exact ⟨_, rfl⟩
        refine ⟨_, ψ, rfl, hψ, ?_, fun v hv => (by cases hv), fun hf n hn hs => ?_⟩
        · rcases hc with rfl | rfl | rfl <;> cases hψ <;> rfl
        · have hs' : φ.Safe 𝓊 𝒽 n := by
            rcases hc with rfl | rfl | rfl <;> cases hψ
            · exact hs
            · exact hs
            · exact hs.1
          have hnear := h5.near (fun j p hj => hf j p (by
            rw [List.getElem?_append_left (List.getElem?_eq_some_iff.1 hj).1]; exact hj)) n hn hs'
          exact hnear.unop n hψ hs h1 h2 (hf s.env.length _ (by simp))
  | binop op x y =>
    by_cases hpow : op = .pow
    · subst hpow
      exact h.step_pow hS hc
    have hc' : op.IsArith ∧ x.IsOperand ∧ y.IsOperand := by
      cases op <;> first | exact absurd rfl hpow | exact hc
    obtain ⟨hop, hox, hoy⟩ := hc'
    have hbin : S.binop op = op.formula := by
      cases op <;> first | exact absurd rfl hpow | rfl
    simp only [RState.step, FState.step, hbin]
    have hnv : ∀ v, ((x.formula f.env).bind fun a => (y.formula f.env).bind (op.formula a)) ≠ some (.var v) := by
      intro v
      cases x.formula f.env with
      | none => simp
      | some φ =>
        cases y.formula f.env with
        | none => simp
        | some ψ => exact BinOp.formula_var
    cases hx : x.reval s.env with
    | none => exact h.pushNone hnv
    | some a =>
      cases hy : y.reval s.env with
      | none => exact h.pushNone hnv
      | some b =>
        simp only
        by_cases hu : (a.isUnc || b.isUnc) = true
        · rw [if_pos hu]
          cases hr : exactBinop op a b with
          | error e => exact h.pushNone hnv
          | ok r =>
            obtain ⟨cx, φ, k1, k2, k3, k4⟩ := h.operand hox hx
            obtain ⟨cy, ψ, l1, l2, l3, l4⟩ := h.operand hoy hy
            obtain ⟨z, c, d, h1, h2, h3, rfl⟩ := exactBinop_arith hop k1 l1 hu hr
            simp only [RState.bind]
            obtain ⟨fv, fe⟩ := f
            obtain rfl : fv = s.vars := h.vars
            refine h.push (fun n h => h) (fun v hv => absurd hv (hnv v)) ?_
            rintro a' ha
            cases ha
            have k2' : x.formula fe = some φ := k2
            have l2' : y.formula fe = some ψ := l2
            simp only [k2', l2', Option.bind_some]
            obtain ⟨χ, hχ⟩ : ∃ χ, op.formula φ ψ = some χ := by
              rcases hop with rfl | rfl | rfl | rfl <;> exact ⟨_, rfl⟩
            refine ⟨_, χ, rfl, hχ, ?_, fun v hv => (by cases hv), fun hf n hn hs => ?_⟩
            · rcases hop with rfl | rfl | rfl | rfl <;> cases hχ <;> rfl
            · have hs' : φ.Safe 𝓊 𝒽 n ∧ ψ.Safe 𝓊 𝒽 n := by
                rcases hop with rfl | rfl | rfl | rfl <;> cases hχ
                · exact hs
                · exact hs
                · exact hs
                · exact ⟨hs.1, hs.2.1⟩
              have hf' : s.AllFin := fun j p hj => hf j p (by
                rw [List.getElem?_append_left (List.getElem?_eq_some_iff.1 hj).1]; exact hj)
              have hg : ∀ {t : RVal F}, t.grad ≠ Grad.zero → t.isUnc = true := by
                intro t ht
                cases t with
                | unc q => rfl
                | plain v => exact absurd rfl ht
              exact (k4 hf' n hn hs'.1).binop n (l4 hf' n hn hs'.2) hχ hs h1 (fun h => h2 (hg h)) (fun h => h3 (hg h))
                (fun h => l3 (hg h)) rfl (hf s.env.length _ (by simp))
        · rw [if_neg hu]
          exact h.pushNone hnv
  | setStd x std =>
    simp only [RState.step, FState.step]
    have hvx : (x.revalUnc s.env).bind RQ.var =
        match x.formula f.env with
        | some (.var v) => some v
        | _ => none := by
      cases x with
      | const v => cases v <;> rfl
      | ref k =>
        simp only [Arg.revalUnc, Arg.reval, Arg.formula]
        cases hk : s.env[k]? with
        | none =>
          have : f.env[k]? = none := by
            rw [List.getElem?_eq_none_iff] at hk ⊢
            rw [h.len]; exact hk
          simp [this]
        | some o =>
          cases o with
          | none =>
            simp only [Option.join_some, Option.bind_none]
            split
            · rename_i v hv
              obtain ⟨q, hq, -⟩ := h.var k v (Option.join_eq_some_iff.1 hv)
              rw [hk] at hq
              cases hq
            · rfl
          | some a =>
            obtain ⟨q, φ, rfl, h2, h3⟩ := h.ok k a hk
            simp only [Option.join_some, h2, Option.bind_some]
            cases hq : q.var with
            | some v => rw [h3.var v hq]
            | none =>
              split
              · rename_i v hv
                cases hv
                obtain ⟨q', hq', hv'⟩ := h.var k v h2
                rw [hk] at hq'
                cases hq'
                rw [hq] at hv'
                cases hv'
              · rfl
    have hstay : FRel s f := h
    rw [hvx]
    cases hφ : x.formula f.env with
    | none => exact h
    | some φ =>
      cases φ with
      | var v =>
        simp only [h.vars]
        cases hcell : s.vars[v]? with
        | none => exact h
        | some cell =>
          simp only
          by_cases hb : specBadStd std
          · simp only [hb, if_true]; exact h
          · simp only [hb, Bool.false_eq_true, if_false]
            refine ⟨rfl, h.len, h.var, fun k a hk => ?_⟩
            obtain ⟨q, φ, h1, h2, h3⟩ := h.ok k a hk
            refine ⟨q, φ, h1, h2, h3.grows (fun n hn w cell' hw => ?_) (fun j p hj => hj)⟩
            by_cases e : v = w
            · subst e
              rw [hcell] at hw
              cases hw
              exact hn v ⟨cell.nom, std⟩ (by rw [List.getElem?_set_self (List.getElem?_eq_some_iff.1 hcell).1])
            · exact hn w cell' (by rw [List.getElem?_set_ne e]; exact hw)
      | _ => exact h
  | wrap df => exact ⟨h.vars, h.len, h.var, fun k a hk => by
      obtain ⟨q, φ, h1, h2, h3⟩ := h.ok k a hk
      exact ⟨q, φ, h1, h2, h3.cst, h3.var, h3.near⟩⟩
  | call fi args kwargs =>
    obtain ⟨rfl, ⟨x, rfl, hx, hone⟩ | ⟨x, y, rfl, hox, hoy, hxy, htwo⟩⟩ := hc
    · obtain ⟨sp, hsp⟩ := Option.isSome_iff_exists.1 hone
      simp only [RState.step, FState.step, hsp, Option.bind_some]
      have hnv : ∀ v, (x.formula f.env).map (Formula.fn1 sp) ≠ some (.var v) := by
        intro v
        cases x.formula f.env <;> simp
      cases hdf : s.fns[fi]? with
      | none => exact h.pushNone hnv
      | some df =>
        simp only [evalArgs]
        cases hxe : x.reval s.env with
        | none => exact h.pushNone hnv
        | some a =>
          simp only
          cases hr : exactCall df [a] [] with
          | error e => exact h.pushNone hnv
          | ok r =>
            cases x with
            | const v => exact hx.elim
            | ref k =>
              have hk : s.env[k]? = some (some a) := Option.join_eq_some_iff.1 hxe
              obtain ⟨q, φ, rfl, h4, h5⟩ := h.ok k _ hk
              rcases exactCall_fn1 hr with rfl | ⟨y, c, h1, h2, rfl⟩
              · exact h.pushNone hnv
              · simp only [RState.bind]
                obtain ⟨fv, fe⟩ := f
                obtain rfl : fv = s.vars := h.vars
                refine h.push (fun n h => h) (fun v hv => absurd hv (hnv v)) ?_
                rintro a ha
                cases ha
                simp only [Arg.formula, h4, Option.join_some, Option.map_some]
                refine ⟨_, _, rfl, rfl, rfl, fun v hv => (by cases hv), fun hf n hn hs => ?_⟩
                have hnear := h5.near (fun j p hj => hf j p (by
                  rw [List.getElem?_append_left (List.getElem?_eq_some_iff.1 hj).1]; exact hj)) n hn hs.1
                exact hnear.fn1 n (hS.one fi sp df hsp hdf) hs h1 h2 (hf s.env.length _ (by simp))
    · obtain ⟨sp, hsp⟩ := Option.isSome_iff_exists.1 htwo
      simp only [RState.step, FState.step, hsp, Option.bind_some]
      have hnv : ∀ v, ((x.formula f.env).bind fun a => (y.formula f.env).map (Formula.fn2 sp a)) ≠ some (.var v) := by
        intro v
        cases x.formula f.env with
        | none => simp
        | some φ => cases y.formula f.env <;> simp
      cases hdf : s.fns[fi]? with
      | none => exact h.pushNone hnv
      | some df =>
        simp only [evalArgs]
        cases hxe : x.reval s.env with
        | none => exact h.pushNone hnv
        | some a =>
          cases hye : y.reval s.env with
          | none => exact h.pushNone hnv
          | some b =>
            simp only
            have hu : (a.isUnc || b.isUnc) = true := by
              have isu : ∀ {z : Arg F} {t : RVal F}, z.IsRef → z.reval s.env = some t → t.isUnc = true := by
                intro z t hz ht
                cases z with
                | const v => exact hz.elim
                | ref k =>
                  obtain ⟨q, φ, rfl, -⟩ := h.ok k t (Option.join_eq_some_iff.1 ht)
                  rfl
              rcases hxy with hz | hz
              · rw [isu hz hxe]; rfl
              · rw [isu hz hye]; simp
            cases hr : exactCall df [a, b] [] with
            | error e => exact h.pushNone hnv
            | ok r =>
              obtain ⟨cx, φ, k1, k2, k3, k4⟩ := h.operand hox hxe
              obtain ⟨cy, ψ, l1, l2, l3, l4⟩ := h.operand hoy hye
              rcases exactCall_fn2 k1 l1 hu hr with rfl | ⟨z, c, d, h1, h2, h3, rfl⟩
              · exact h.pushNone hnv
              · simp only [RState.bind]
                obtain ⟨fv, fe⟩ := f
                obtain rfl : fv = s.vars := h.vars
                refine h.push (fun n h => h) (fun v hv => absurd hv (hnv v)) ?_
                rintro a' ha
                cases ha
                have k2' : x.formula fe = some φ := k2
                have l2' : y.formula fe = some ψ := l2
                simp only [k2', l2', Option.bind_some, Option.map_some]
                refine ⟨_, _, rfl, rfl, rfl, fun v hv => (by cases hv), fun hf n hn hs => ?_⟩
                have hf' : s.AllFin := fun j p hj => hf j p (by
                  rw [List.getElem?_append_left (List.getElem?_eq_some_iff.1 hj).1]; exact hj)
                have hg : ∀ {t : RVal F}, t.grad ≠ Grad.zero → t.isUnc = true := by
                  intro t ht
                  cases t with
                  | unc q => rfl
                  | plain v => exact absurd rfl ht
                exact (k4 hf' n hn hs.1).fn2 n (hS.two fi sp df hsp hdf) (l4 hf' n hn hs.2.1) hs h1 (fun h => h2 (hg h))
                  (fun h => h3 (hg h)) rfl (hf s.env.length _ (by simp))
  | _ => first | exact h | exact absurd hc (by simp [Cmd.IsCalc, Cmd.isRead])

theorem FRel.init : FRel ({ vars := [], fns := opDefs, env := [] } : RState F) ⟨[], []⟩ :=
  ⟨rfl, rfl, fun k v h => by simp at h, fun k a h => by simp at h⟩

theorem RState.step_fns (s : RState F) (c : Cmd F) : (s.step c).fns = s.fns ++ c.defs := by
  cases c <;> simp only [RState.step, RState.bind, RState.skip, Cmd.defs, List.append_nil] <;> (repeat' split) <;> rfl

/-- The relation holds after any calculation. -/
theorem FRel.exactly {S : FnSpecs} (cs : List (Cmd F)) (hS : S.Right (fnsOf cs)) (hc : ∀ c ∈ cs, c.IsCalc S) :
    FRel (Unc.exactly cs) (formulas S cs) := by
  have key : ∀ (cs : List (Cmd F)) (s : RState F) (f : FState F), S.Right (s.fns ++ cs.flatMap Cmd.defs) →
      (∀ c ∈ cs, c.IsCalc S) → FRel s f → FRel (cs.foldl RState.step s) (cs.foldl (FState.step S) f) := by
    intro cs
    induction cs with
    | nil => intro s f _ _ h; exact h
    | cons c cs ih =>
      intro s f hS hc h
      refine ih _ _ ?_ (fun d hd => hc d (by simp [hd])) (h.step ?_ c (hc c (by simp)))
      · rw [RState.step_fns, List.append_assoc]
        exact hS
      · have pre : ∀ {fi : ℕ} {df : WrapDef F}, s.fns[fi]? = some df →
            (s.fns ++ (c :: cs).flatMap Cmd.defs)[fi]? = some df := fun hf => by
          rw [List.getElem?_append_left (List.getElem?_eq_some_iff.1 hf).1]; exact hf
        exact ⟨fun fi sp df h1 h2 => hS.one fi sp df h1 (pre h2), fun fi sp df h1 h2 => hS.two fi sp df h1 (pre h2),
          hS.powc, hS.pow⟩
  exact key cs _ _ hS hc FRel.init

theorem Cmd.IsCalc.notCopy {S : FnSpecs} {c : Cmd F} (h : c.IsCalc S) : c.isCopy = false := by
  cases c <;> first | rfl | exact absurd h (by simp [Cmd.IsCalc, Cmd.isRead])

end Unc
