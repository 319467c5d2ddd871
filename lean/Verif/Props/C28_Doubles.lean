import Verif.Props.C27_Umath
import Verif.Lemmas.Done
import Verif.Lemmas.B64Shift

/-
C26 and C28 for floats: operations and functions that succeed, and those that do not.
-/

namespace Unc

set_option autoImplicit false

/-! ### Functions with analytical derivatives, for every float semantics -/

section
variable {F : Type} [PyMath F] [Halts F] [MathErrors F]

/-- **C28** (partial: functions with analytical derivatives), for all floats whose operations raise only
arithmetic exceptions: no law of arithmetic is assumed. If `math.fn` succeeds on the nominal value, then
`umath.fn` succeeds. -/
theorem C28_floats_one_partial {cs : List (Cmd F)} {f : Nat} {fn : MF1} (hf : (fnsOf cs)[f]? = some fn.wrapDef)
    (hfn : fn ≠ .gamma ∧ fn ≠ .lgamma) {a : Arg F} {x z : F}
    (ha : sees cs (.nominal a) = .val (.flt x)) (hz : fn.func [.flt x] [] = .ok (.flt z)) :
    sees cs (.call f [a] []) = .done ∧
      sees (cs ++ [.call f [a] []]) (.nominal (next cs)) = .val (.flt z) := by
  obtain ⟨D, e⟩ := MF1.analytical (F := F) hfn
  obtain ⟨c, h1, -⟩ := nanIfException_total (MF1.deriv_arith e x)
  refine call_done hf (av := [.flt x]) ⟨ha, trivial⟩ hz ?_
  intro i hi
  match i, hi with
  | 0, _ => exact ⟨c, by rw [MF1.specPos e, h1]⟩

/-- **C28** (partial: all but `fmod`), two arguments, for all floats. -/
theorem C28_floats_two_partial {cs : List (Cmd F)} {f : Nat} {fn : MF2} (hf : (fnsOf cs)[f]? = some fn.wrapDef)
    (hfn : fn ≠ .fmod) {a b : Arg F} {x y z : F}
    (ha : sees cs (.nominal a) = .val (.flt x)) (hb : sees cs (.nominal b) = .val (.flt y))
    (hz : fn.func [.flt x, .flt y] [] = .ok (.flt z)) :
    sees cs (.call f [a, b] []) = .done ∧
      sees (cs ++ [.call f [a, b] []]) (.nominal (next cs)) = .val (.flt z) := by
  obtain ⟨D0, D1, e0, e1⟩ := MF2.analytical (F := F) hfn
  obtain ⟨c0, h1, -⟩ := nanIfException_total (MF2.deriv0_arith e0 x y)
  obtain ⟨c1, h3, -⟩ := nanIfException_total (MF2.deriv1_arith e1 x y)
  refine call_done hf (av := [.flt x, .flt y]) ⟨ha, hb, trivial⟩ hz ?_
  intro i hi
  match i, hi with
  | 0, _ => exact ⟨c0, by rw [MF2.specPos0 e0 e1, h1]⟩
  | 1, _ => exact ⟨c1, by rw [MF2.specPos1 e0 e1, h3]⟩

open MathErrors in
/-- **C28**, `umath.log` with one argument, for all floats. -/
theorem C28_floats_log {cs : List (Cmd F)} {f : Nat} (hf : (fnsOf cs)[f]? = some logWrapDef)
    {a : Arg F} {x z : F} (ha : sees cs (.nominal a) = .val (.flt x))
    (hz : logFunc [.flt x] [] = .ok (.flt z)) :
    sees cs (.call f [a] []) = .done ∧
      sees (cs ++ [.call f [a] []]) (.nominal (next cs)) = .val (.flt z) := by
  obtain ⟨c, h1, -⟩ := nanIfException_total (r := logDer0 [.flt x] []) (truediv _ _)
  refine call_done hf (av := [.flt x]) ⟨ha, trivial⟩ hz ?_
  intro i hi
  match i, hi with
  | 0, _ => exact ⟨c, h1⟩

open MathErrors in
/-- **C28**, `umath.log` with a base, for all floats. -/
theorem C28_floats_log_base {cs : List (Cmd F)} {f : Nat} (hf : (fnsOf cs)[f]? = some logWrapDef)
    {a b : Arg F} {x y z : F}
    (ha : sees cs (.nominal a) = .val (.flt x)) (hb : sees cs (.nominal b) = .val (.flt y))
    (hz : logFunc [.flt x, .flt y] [] = .ok (.flt z)) :
    sees cs (.call f [a, b] []) = .done ∧
      sees (cs ++ [.call f [a, b] []]) (.nominal (next cs)) = .val (.flt z) := by
  obtain ⟨c0, h1, -⟩ := nanIfException_total (r := logDer0 [.flt x, .flt y] [])
    (arith_bind (truediv _ _) fun _ _ => arith_bind (log _) fun _ _ => truediv _ _)
  obtain ⟨c1, h3, -⟩ := nanIfException_total (r := logDer1 [.flt x, .flt y] [])
    (arith_bind (logb _ _) fun _ _ => arith_bind (truediv _ _) fun _ _ => arith_bind (log _) fun _ _ => truediv _ _)
  refine call_done hf (av := [.flt x, .flt y]) ⟨ha, hb, trivial⟩ hz ?_
  intro i hi
  match i, hi with
  | 0, _ => exact ⟨c0, h1⟩
  | 1, _ => exact ⟨c1, h3⟩

end

/-! ### Double precision -/

namespace B64

attribute [local irreducible] B64.round

theorem quot_err {f : ℤ → ℤ → B64} {a b : B64} {e : PyErr} (h : quot f a b = .error e) : e.Arith ∧ b = fin 0 := by
  unfold quot at h
  split at h <;> cases h
  exact ⟨Or.inr (Or.inl rfl), rfl⟩

theorem quot_ok (f : ℤ → ℤ → B64) (a : B64) {b : B64} (h : b ≠ fin 0) : ∃ c, quot f a b = .ok c := by
  cases hq : quot f a b with
  | ok c => exact ⟨c, rfl⟩
  | error e => exact absurd (quot_err hq).2 h

theorem checked_err {x : B64} {e : PyErr} (h : checked x = .error e) : e.Arith := by
  cases x <;> cases h
  exact Or.inr (Or.inr rfl)

theorem sq_err {x : B64} {e : PyErr} (h : sq x = .error e) : e.Arith := by
  cases x with
  | nan => cases h
  | inf b => cases h
  | fin m => exact checked_err h

theorem sqrt_err {x : B64} {e : PyErr} (h : sqrt x = .error e) : e.Arith := by
  cases x with
  | nan => cases h
  | inf b => cases b <;> cases h; exact Or.inl rfl
  | fin m =>
    simp only [sqrt] at h
    split at h
    · cases h; exact Or.inl rfl
    · split at h <;> cases h

theorem fmod_err {x y : B64} {e : PyErr} (h : fmod x y = .error e) : e.Arith := by
  unfold fmod at h
  split at h <;> cases h <;> exact Or.inl rfl

/-- Doubles raise only arithmetic exceptions. -/
instance : MathErrors B64 where
  truediv a b e h := (quot_err h).1
  sq a e h := sq_err h
  sqrt a e h := sqrt_err h
  mod a b e h := (quot_err h).1
  log a e h := by
    simp only [PyOps.log] at h
    split at h <;> (try split at h) <;> cases h <;> exact Or.inl rfl
  logb a b e h := by cases h
  fn1 fn a e h := by
    cases fn <;> first | cases h; done | exact sqrt_err h
  fn2 fn a b e h := by
    cases fn <;> first | cases h; done | exact fmod_err h

theorem fmod_ok_iff {x y : B64} : (∃ z, fmod x y = .ok z) ↔
    x = nan ∨ y = nan ∨ (x.Fin ∧ y ≠ fin 0) := by
  cases x with
  | nan => simp [fmod]
  | inf a => cases y <;> simp [fmod, Fin]
  | fin m =>
    cases y with
    | nan => simp [fmod]
    | inf b => simp [fmod, Fin]
    | fin n =>
      by_cases hn : n = 0
      · subst hn; simp [fmod, Fin]
      · have : fmod (fin m) (fin n) = .ok (fin (Int.tmod m n)) := by
          cases n with
          | ofNat k => cases k with
            | zero => exact absurd rfl hn
            | succ k => rfl
          | negSucc k => rfl
        simp [this, Fin, hn]

theorem add_nan (x : B64) : x + nan = nan := by cases x <;> rfl
theorem nan_add (x : B64) : nan + x = nan := rfl
theorem nan_sub (x : B64) : nan - x = nan := rfl

theorem step_ne_zero {x : B64} : derivStep x ≠ fin 0 := by
  intro h
  have := derivStep_pos (F := B64) (x := x) (h ▸ trivial)
  rw [h] at this
  have e : Rounded.val (fin 0 : B64) = 0 := by
    show val (fin 0) = 0
    simp [val]
  rw [e] at this
  exact lt_irrefl _ this.1

theorem centralDiff_ok (p m : B64) {s : B64} (hs : s ≠ fin 0) : ∃ c, centralDiff (.flt p) (.flt m) s = .ok c := by
  have h2 : (PyFloat.two : B64) ≠ fin 0 := by
    intro h
    have e : val (PyFloat.two : B64) = 2 := RoundedStep.val_two (F := B64)
    rw [h] at e
    simp [val] at e
  obtain ⟨q, hq⟩ := quot_ok (fun x y => round (x * 2 ^ 1074 * y.sign) y.natAbs) (p - m) h2
  obtain ⟨c, hc⟩ := quot_ok (fun x y => round (x * 2 ^ 1074 * y.sign) y.natAbs) q hs
  refine ⟨c, ?_⟩
  have hq' : PyFloat.truediv (p - m) PyFloat.two = .ok q := hq
  simp only [centralDiff, hq']
  exact hc

/-- The derivative of `x % y` with respect to `y` can be calculated. -/
theorem mod_deriv1_ok (x : B64) {y : B64} (hy : y ≠ fin 0) : ∃ c, BinOp.deriv1 .mod x y = .ok c := by
  obtain ⟨h1, h2⟩ := shift_ne_zero hy
  obtain ⟨p, hp⟩ := quot_ok (fun x y => round (Int.fmod x y) 1) x h1
  obtain ⟨m, hm⟩ := quot_ok (fun x y => round (Int.fmod x y) 1) x h2
  obtain ⟨c, hc⟩ := centralDiff_ok p m (s := derivStep y) step_ne_zero
  refine ⟨c, ?_⟩
  have hp' : BinOp.method .mod [.flt x, .flt (y + derivStep y)] [] = .ok (.flt p) := by
    show (quot (fun x y => round (Int.fmod x y) 1) x (y + derivStep y)).map PyVal.flt = _
    rw [hp]; rfl
  have hm' : BinOp.method .mod [.flt x, .flt (y + derivStep y - PyFloat.two * derivStep y)] [] = .ok (.flt m) := by
    show (quot (fun x y => round (Int.fmod x y) 1) x (y + derivStep y - PyFloat.two * derivStep y)).map PyVal.flt = _
    rw [hm]; rfl
  simp only [BinOp.deriv1, partialDerivative, List.getElem?_cons_succ, List.getElem?_cons_zero, List.set_cons_succ,
    List.set_cons_zero, hp', hm']
  exact hc

end B64

namespace B64

attribute [local irreducible] B64.round

/-- The points used by numerical differentiation, for `fmod`. -/
theorem fmod_shift0 {x y : B64} (hx : x.Fin → |val x| < 2 ^ 1023) (h : ∃ z, fmod x y = .ok z) :
    (∃ z, fmod (x + derivStep x) y = .ok z) ∧
      ∃ z, fmod (x + derivStep x - PyFloat.two * derivStep x) y = .ok z := by
  simp only [fmod_ok_iff] at h ⊢
  rcases h with rfl | rfl | ⟨h1, h2⟩
  · exact ⟨Or.inl rfl, Or.inl rfl⟩
  · exact ⟨Or.inr (Or.inl rfl), Or.inr (Or.inl rfl)⟩
  · obtain ⟨-, h3, h4⟩ := shift_fin h1 (hx h1)
    exact ⟨Or.inr (Or.inr ⟨h3, h2⟩), Or.inr (Or.inr ⟨h4, h2⟩)⟩

theorem fmod_shift1 {x y : B64} (h : ∃ z, fmod x y = .ok z) :
    (∃ z, fmod x (y + derivStep y) = .ok z) ∧
      ∃ z, fmod x (y + derivStep y - PyFloat.two * derivStep y) = .ok z := by
  simp only [fmod_ok_iff] at h ⊢
  rcases h with rfl | rfl | ⟨h1, h2⟩
  · exact ⟨Or.inl rfl, Or.inl rfl⟩
  · exact ⟨Or.inr (Or.inl rfl), Or.inr (Or.inl rfl)⟩
  · obtain ⟨h3, h4⟩ := shift_ne_zero h2
    exact ⟨Or.inr (Or.inr ⟨h1, h3⟩), Or.inr (Or.inr ⟨h1, h4⟩)⟩

theorem fmod_func (x y : B64) : MF2.func .fmod [.flt x, .flt y] [] = (fmod x y).map PyVal.flt := rfl

/-- The square of a number that is neither too large nor too small. -/
theorem sq_ok {y : B64} (h : y.Fin → (2 : ℝ)⁻¹ ^ 537 ≤ |val y| ∧ |val y| ≤ 2 ^ 511) :
    ∃ z, sq y = .ok z ∧ z ≠ fin 0 := by
  cases y with
  | nan => exact ⟨nan, rfl, by simp⟩
  | inf b => exact ⟨inf false, rfl, by simp⟩
  | fin m =>
    obtain ⟨h1, h2⟩ := h trivial
    have hp : (0 : ℝ) < (2 : ℝ)⁻¹ ^ 537 := by positivity
    have e : |val (fin m) * val (fin m)| = |val (fin m)| ^ 2 := by rw [abs_mul, pow_two]
    have h3 : |val (fin m)| ^ 2 ≤ 2 ^ 1022 := by
      have : |val (fin m)| ^ 2 ≤ ((2 : ℝ) ^ 511) ^ 2 := pow_le_pow_left₀ (abs_nonneg _) h2 2
      rw [← pow_mul] at this
      exact this
    have h4 : (2 : ℝ)⁻¹ ^ 1074 ≤ |val (fin m)| ^ 2 := by
      have : ((2 : ℝ)⁻¹ ^ 537) ^ 2 ≤ |val (fin m)| ^ 2 := pow_le_pow_left₀ hp.le h1 2
      rw [← pow_mul] at this
      exact this
    have e2 : (2 : ℝ) ^ 1023 = 2 * 2 ^ 1022 := by rw [pow_succ (2 : ℝ) 1022]; ring
    have hf : (mul (fin m) (fin m)).Fin := by
      apply mul_fin_of (a := fin m) (b := fin m) trivial trivial
      rw [e, e2]
      have : (0 : ℝ) < 2 ^ 1022 := by positivity
      clear h1 h2 h4 hp e2 e
      generalize (2 : ℝ) ^ 1022 = B at *
      linarith
    have hl := (mul_law _ _ hf).2.2
    rw [e] at hl
    obtain ⟨k, hk⟩ := (fin_iff _).1 hf
    refine ⟨fin k, by simp only [sq, hk, checked], ?_⟩
    intro h0
    rw [hk, h0] at hl
    have e0 : val (fin 0) = 0 := by simp [val]
    rw [e0, zero_sub, abs_neg, e] at hl
    rw [eta_eq] at h4
    have hη0 : (0 : ℝ) < (2 : ℝ)⁻¹ ^ 1075 := by positivity
    generalize |val (fin m)| ^ 2 = q at hl h4
    generalize (2 : ℝ)⁻¹ ^ 1075 = η at hl h4 hη0
    norm_num at hl
    linarith

end B64

open B64 in
/-- **C28** (partial: first arguments less than `2**1023`) for `fmod` in double precision: if `math.fmod`
succeeds on the nominal values, then `umath.fmod` succeeds, although its derivatives are calculated
numerically and are not protected. (NaN and infinities are included.) -/
theorem C28_fmod_doubles_partial {cs : List (Cmd B64)} {f : Nat} (hf : (fnsOf cs)[f]? = some (MF2.wrapDef .fmod))
    {a b : Arg B64} {x y z : B64} (ha : sees cs (.nominal a) = .val (.flt x))
    (hb : sees cs (.nominal b) = .val (.flt y)) (hx : x.Fin → |val x| < 2 ^ 1023)
    (hz : MF2.func .fmod [.flt x, .flt y] [] = .ok (.flt z)) :
    sees cs (.call f [a, b] []) = .done ∧
      sees (cs ++ [.call f [a, b] []]) (.nominal (next cs)) = .val (.flt z) := by
  have h : ∃ z, fmod x y = .ok z := by
    rw [fmod_func] at hz
    cases hq : fmod x y with
    | error e => rw [hq] at hz; cases hz
    | ok z => exact ⟨z, rfl⟩
  refine call_done hf (av := [.flt x, .flt y]) ⟨ha, hb, trivial⟩ hz ?_
  intro i hi
  match i, hi with
  | 0, _ =>
    obtain ⟨⟨p, hp⟩, ⟨m, hm⟩⟩ := fmod_shift0 hx h
    obtain ⟨c, hc⟩ := centralDiff_ok p m (s := derivStep x) step_ne_zero
    refine ⟨c, ?_⟩
    show partialDerivative (MF2.func .fmod) (.pos 0) [.flt x, .flt y] [] = _
    simp only [partialDerivative, List.getElem?_cons_zero, List.set_cons_zero, fmod_func, hp, hm, Except.map]
    exact hc
  | 1, _ =>
    obtain ⟨⟨p, hp⟩, ⟨m, hm⟩⟩ := fmod_shift1 h
    obtain ⟨c, hc⟩ := centralDiff_ok p m (s := derivStep y) step_ne_zero
    refine ⟨c, ?_⟩
    show partialDerivative (MF2.func .fmod) (.pos 1) [.flt x, .flt y] [] = _
    simp only [partialDerivative, List.getElem?_cons_succ, List.getElem?_cons_zero, List.set_cons_succ,
      List.set_cons_zero, fmod_func, hp, hm, Except.map]
    exact hc

open B64 in
/-- **C26** (partial: all the operations but powers, and divisors that are neither too large nor too
small), in double precision: if the operation on the nominal values succeeds, then the operation on
numbers with uncertainties succeeds. The condition is only for divisions by numbers with uncertainties. (NaN and infinities are
included.) -/
theorem C26_doubles_partial {cs : List (Cmd B64)} {op : BinOp} (hop : op ≠ .pow) {a b : Arg B64} {x y z : B64}
    (ha : sees cs (.nominal a) = .val (.flt x)) (hb : sees cs (.nominal b) = .val (.flt y))
    (hu : sees cs (.binop op a b) ≠ .invalid) (hz : op.onFloats x y = .ok (.flt z))
    (hy : op = .truediv → (∀ v, b ≠ .const v) → y.Fin → (2 : ℝ)⁻¹ ^ 537 ≤ |val y| ∧ |val y| ≤ 2 ^ 511) :
    sees cs (.binop op a b) = .done ∧
      sees (cs ++ [.binop op a b]) (.nominal (next cs)) = .val (.flt z) := by
  have hq : ∀ {g : ℤ → ℤ → B64}, (quot g x y).map PyVal.flt = .ok (.flt z) → y ≠ fin 0 := by
    rintro g h rfl
    have : quot g x (fin 0) = .error .zeroDivisionError := by
      cases x <;> rfl
    rw [this] at h
    cases h
  cases op with
  | pow => exact absurd rfl hop
  | add => exact binop_done ha hb hu hz (fun _ => ⟨_, rfl⟩) (fun _ => ⟨_, rfl⟩)
  | sub => exact binop_done ha hb hu hz (fun _ => ⟨_, rfl⟩) (fun _ => ⟨_, rfl⟩)
  | mul => exact binop_done ha hb hu hz (fun _ => ⟨_, rfl⟩) (fun _ => ⟨_, rfl⟩)
  | floordiv => exact binop_done ha hb hu hz (fun _ => ⟨_, rfl⟩) (fun _ => ⟨_, rfl⟩)
  | mod => exact binop_done ha hb hu hz (fun _ => ⟨_, rfl⟩) (fun _ => mod_deriv1_ok x (hq hz))
  | truediv =>
    refine binop_done ha hb hu hz (fun _ => quot_ok _ _ (hq hz)) ?_
    rintro ⟨u, hbu⟩
    obtain ⟨q, hs, hne⟩ := sq_ok (hy rfl (by rintro v rfl; cases hbu))
    obtain ⟨c, hc⟩ := quot_ok (fun x y => round (x * 2 ^ 1074 * y.sign) y.natAbs) (-x) hne
    refine ⟨c, ?_⟩
    have hs' : PyFloat.sq y = .ok q := hs
    simp only [BinOp.deriv1, hs']
    exact hc

/-! ### Failures and examples -/

/-- Did a command raise this exception? -/
def Out.raises {F : Type} (e : PyErr) : Out F → Bool
  | .err e' => e == e'
  | _ => false

theorem Out.raises_eq {F : Type} {e : PyErr} {o : Out F} (h : o.raises e = true) : o = .err e := by
  cases o with
  | err e' =>
    have : (e == e') = true := h
    rw [beq_iff_eq] at this
    rw [this]
  | _ => cases h

/-- Is this result this finite float? -/
def Out.isFin (m : ℤ) : Out B64 → Bool
  | .val (.flt (.fin n)) => m == n
  | _ => false

theorem Out.isFin_eq {m : ℤ} {o : Out B64} (h : o.isFin m = true) : o = .val (.flt (.fin m)) := by
  unfold Out.isFin at h
  split at h
  · rw [beq_iff_eq] at h; rw [h]
  · cases h

/-- Is this command possible, and without a result that is returned? -/
def Out.isDone {F : Type} : Out F → Bool
  | .done => true
  | _ => false

theorem Out.isDone_ne {F : Type} {o : Out F} (h : o.isDone = true) : o ≠ .invalid := by
  rintro rfl
  cases h

/-- `x = ufloat(1.7976931348623157e308, 1); y = ufloat(2**-600, 1)`, and `umath.fmod` -/
def exHuge : List (Cmd B64) :=
  [.ufloat (.fin ((2 ^ 53 - 1) * 2 ^ 2045)) (.fin (2 ^ 1074)) none,
   .ufloat (.fin (2 ^ 474)) (.fin (2 ^ 1074)) none, .wrap (MF2.wrapDef .fmod)]

/-- **C28** does not hold for `fmod` in double precision: at the largest double, `math.fmod(x, 2)` is 0,
and `umath.fmod(x, 2)` raises `ValueError`, because `x` plus the step of the numerical derivative is
infinite. -/
theorem C28_fails_fmod : ∃ (cs : List (Cmd B64)) (f : Nat) (a : Arg B64) (x y : B64),
    (fnsOf cs)[f]? = some (MF2.wrapDef .fmod) ∧ sees cs (.nominal a) = .val (.flt x) ∧
    MF2.func .fmod [.flt x, .flt y] [] = .ok (.flt 0) ∧
    sees cs (.call f [a, .const (.flt y)] []) = .err .valueError := by
  refine ⟨exHuge, (opDefs (F := B64)).length, .ref 0, .fin ((2 ^ 53 - 1) * 2 ^ 2045), .fin (2 ^ 1075), ?_, ?_, ?_, ?_⟩
  · simp [fnsOf, exHuge, Cmd.defs]
  · exact Out.isFin_eq (by decide +kernel)
  · have : B64.fmod (.fin ((2 ^ 53 - 1) * 2 ^ 2045)) (.fin (2 ^ 1075)) = .ok (.fin 0) := by decide +kernel
    rw [B64.fmod_func, this]
    rfl
  · exact Out.raises_eq (by decide +kernel)

/-- **C26** does not hold for small divisors in double precision: with `y = ufloat(2**-600, 1)`, `1/y` raises
`ZeroDivisionError`, because `y**2` is 0, although the division of the nominal values succeeds. -/
theorem C26_fails_small : ∃ (cs : List (Cmd B64)) (b : Arg B64) (y z : B64),
    sees cs (.nominal b) = .val (.flt y) ∧ BinOp.onFloats .truediv 1 y = .ok (.flt z) ∧
    sees cs (.binop .truediv (.const (.flt 1)) b) = .err .zeroDivisionError := by
  refine ⟨exHuge, .ref 1, .fin (2 ^ 474), .fin (2 ^ 1674), ?_, ?_, ?_⟩
  · exact Out.isFin_eq (by decide +kernel)
  · have : PyFloat.truediv (1 : B64) (.fin (2 ^ 474)) = .ok (.fin (2 ^ 1674)) := by decide +kernel
    show (PyFloat.truediv (1 : B64) (.fin (2 ^ 474))).map PyVal.flt = _
    rw [this]
    rfl
  · exact Out.raises_eq (by decide +kernel)

/-- `x = ufloat(7, 0.5); y = ufloat(2, 1)`, with `umath.fmod` and `umath.sqrt` -/
def exDoubles : List (Cmd B64) :=
  [.ufloat (.fin (7 * 2 ^ 1074)) (.fin (2 ^ 1073)) none, .ufloat (.fin (2 ^ 1075)) (.fin (2 ^ 1074)) none,
   .wrap (MF2.wrapDef .fmod), .wrap (MF1.wrapDef .sqrt), .ufloat (.fin 0) (.fin (2 ^ 1074)) none]

theorem exDoubles_x : sees exDoubles (.nominal (.ref 0)) = .val (.flt (.fin (7 * 2 ^ 1074))) :=
  Out.isFin_eq (by decide +kernel)

theorem exDoubles_y : sees exDoubles (.nominal (.ref 1)) = .val (.flt (.fin (2 ^ 1075))) :=
  Out.isFin_eq (by decide +kernel)

theorem exDoubles_val : B64.val (.fin (2 ^ 1075)) = 2 := RoundedStep.val_two (F := B64)

/-- `umath.fmod(x, y)`, which is 1. -/
example : sees exDoubles (.call (opDefs (F := B64)).length [.ref 0, .ref 1] []) = .done := by
  refine (C28_fmod_doubles_partial (z := .fin (2 ^ 1074)) ?_ exDoubles_x exDoubles_y ?_ ?_).1
  · simp [fnsOf, exDoubles, Cmd.defs]
  · intro _
    have e : B64.val (.fin (7 * 2 ^ 1074)) = 7 := by
      simp only [B64.val]
      push_cast
      rw [mul_assoc, ← mul_pow]
      norm_num
    have h : (2 : ℝ) ^ 10 ≤ 2 ^ 1023 := pow_le_pow_right₀ (by norm_num) (by norm_num)
    rw [e]
    generalize (2 : ℝ) ^ 1023 = B at h ⊢
    norm_num at h ⊢
    linarith
  · have : B64.fmod (.fin (7 * 2 ^ 1074)) (.fin (2 ^ 1075)) = .ok (.fin (2 ^ 1074)) := by decide +kernel
    rw [B64.fmod_func, this]
    rfl

/-- `umath.sqrt(ufloat(0, 1))`, whose derivative raises an exception. -/
example : sees exDoubles (.call ((opDefs (F := B64)).length + 1) [.ref 2] []) = .done := by
  refine (C28_floats_one_partial (fn := .sqrt) (x := .fin 0) (z := .fin 0) ?_ (by simp) ?_ ?_).1
  · simp [fnsOf, exDoubles, Cmd.defs]
  · exact Out.isFin_eq (by decide +kernel)
  · have : B64.sqrt (.fin 0) = .ok (.fin 0) := by decide +kernel
    show (B64.sqrt (.fin 0)).map PyVal.flt = _
    rw [this]
    rfl

/-- `x % y` and `x / y`. -/
example : sees exDoubles (.binop .mod (.ref 0) (.ref 1)) = .done ∧
    sees exDoubles (.binop .truediv (.ref 0) (.ref 1)) = .done := by
  constructor
  · refine (C26_doubles_partial (z := .fin (2 ^ 1074)) (by simp) exDoubles_x exDoubles_y
      (Out.isDone_ne (by decide +kernel)) ?_ (by simp)).1
    have : PyOps.mod (.fin (7 * 2 ^ 1074) : B64) (.fin (2 ^ 1075)) = .ok (.fin (2 ^ 1074)) := by decide +kernel
    simp only [BinOp.onFloats, this, Except.map]
  · refine (C26_doubles_partial (z := .fin (7 * 2 ^ 1073)) (by simp) exDoubles_x exDoubles_y
      (Out.isDone_ne (by decide +kernel)) ?_ ?_).1
    · have : PyFloat.truediv (.fin (7 * 2 ^ 1074) : B64) (.fin (2 ^ 1075)) = .ok (.fin (7 * 2 ^ 1073)) := by
        decide +kernel
      simp only [BinOp.onFloats, this, Except.map]
    · intro _ _ _
      rw [exDoubles_val, abs_of_pos (by norm_num)]
      constructor
      · calc (2 : ℝ)⁻¹ ^ 537 ≤ (2 : ℝ)⁻¹ ^ 1 := pow_le_pow_of_le_one (by norm_num) (by norm_num) (by norm_num)
          _ ≤ 2 := by norm_num
      · calc (2 : ℝ) = 2 ^ 1 := by norm_num
          _ ≤ 2 ^ 511 := pow_le_pow_right₀ (by norm_num) (by norm_num)

end Unc
