import Verif.Lemmas.Monotone

/-
`D64`: the doubles, i.e. the floats of `B64` that have at most 53 significant bits and no overflow. The operations are those of
`B64`; see there for what the mathematical functions are.
-/

namespace Unc

set_option autoImplicit false

namespace B64

theorem natAbs_rndInt (m : ℤ) (d : ℕ) : (rndInt m d).natAbs = rndTo m.natAbs d := by
  unfold rndInt
  rw [Int.natAbs_mul]
  rcases lt_trichotomy m 0 with h | rfl | h
  · rw [Int.sign_eq_neg_one_of_neg h]; simp
  · simp [rndTo, rdiv, eq_comm]
  · rw [Int.sign_eq_one_of_pos h]; simp

theorem rndInt_neg (m : ℤ) (d : ℕ) : rndInt (-m) d = -rndInt m d := by
  unfold rndInt
  rw [Int.sign_neg, Int.natAbs_neg, neg_mul]

theorem rndInt_idem (m : ℤ) (d : ℕ) (hd : 0 < d) : rndInt (rndInt m d) 1 = rndInt m d := by
  conv_lhs => unfold rndInt
  change (rndInt m d).sign * (rndTo (rndInt m d).natAbs 1 : ℕ) = _
  rw [natAbs_rndInt, rndTo_idem _ _ hd, ← natAbs_rndInt, Int.sign_mul_natAbs]

/-- The double nearest to a float. -/
def canon : B64 → B64
  | fin m => round m 1
  | x => x

theorem round_cases (m : ℤ) (d : ℕ) : (round m d = fin (rndInt m d) ∧ (rndInt m d).natAbs < 2 ^ 2098) ∨
    (round m d = inf (decide (m < 0)) ∧ ¬ (rndInt m d).natAbs < 2 ^ 2098) := by
  unfold round
  generalize 2 ^ 2098 = B
  split
  · rename_i h; exact .inl ⟨rfl, h⟩
  · rename_i h; exact .inr ⟨rfl, h⟩

theorem round_of_lt {m : ℤ} {d : ℕ} (h : (rndInt m d).natAbs < 2 ^ 2098) : round m d = fin (rndInt m d) := by
  rcases round_cases m d with h1 | h1
  · exact h1.1
  · exact (h1.2 h).elim

theorem round_of_not_lt {m : ℤ} {d : ℕ} (h : ¬ (rndInt m d).natAbs < 2 ^ 2098) : round m d = inf (decide (m < 0)) := by
  rcases round_cases m d with h1 | h1
  · exact (h h1.2).elim
  · exact h1.1

theorem canon_round (m : ℤ) (d : ℕ) (hd : 0 < d) : canon (round m d) = round m d := by
  rcases round_cases m d with ⟨h, h1⟩ | ⟨h, h1⟩
  · rw [h]
    change round (rndInt m d) 1 = _
    rw [round_of_lt (by rwa [rndInt_idem _ _ hd]), rndInt_idem _ _ hd]
  · rw [h]; rfl

theorem canon_canon (x : B64) : canon (canon x) = canon x := by
  cases x with
  | nan => rfl
  | inf b => rfl
  | fin m => exact canon_round m 1 one_pos

theorem sign_neg {m : ℤ} (hm : m ≠ 0) : decide (-m < 0) = !decide (m < 0) := by
  rcases lt_trichotomy m 0 with h | h | h
  · simp [h, h.le]
  · exact (hm h).elim
  · simp [h, h.le]

theorem round_neg (m : ℤ) (d : ℕ) : round (-m) d = neg (round m d) := by
  rcases round_cases m d with ⟨h, h1⟩ | ⟨h, h1⟩
  · rw [h, round_of_lt (by rwa [rndInt_neg, Int.natAbs_neg]), rndInt_neg]; rfl
  · rw [h, round_of_not_lt (by rwa [rndInt_neg, Int.natAbs_neg])]
    have hm : m ≠ 0 := by
      rintro rfl
      apply h1
      unfold rndInt
      simp
    rw [sign_neg hm]; rfl

theorem canon_neg (x : B64) : canon (neg x) = neg (canon x) := by
  cases x with
  | nan => rfl
  | inf b => rfl
  | fin m => exact round_neg m 1

/-- A double: the exact value of a float that has at most 53 significant bits. -/
theorem canon_fin {m : ℤ} (h : canon (fin m) = fin m) : rndTo m.natAbs 1 = m.natAbs ∧ m.natAbs < 2 ^ 2098 := by
  change round m 1 = fin m at h
  rcases round_cases m 1 with ⟨h1, h2⟩ | ⟨h1, h2⟩
  · rw [h1] at h
    have h3 : rndInt m 1 = m := by injection h
    rw [h3] at h2
    refine ⟨?_, h2⟩
    rw [← natAbs_rndInt, h3]
  · rw [h1] at h; cases h

theorem canon_of_form {k e : ℕ} {m : ℤ} (hm : m.natAbs = k * 2 ^ e) (hk : k ≤ 2 ^ 53) (h : m.natAbs < 2 ^ 2098) :
    canon (fin m) = fin m := by
  have h1 : rndInt m 1 = m := by
    unfold rndInt
    have := rndTo_exact (e := e) (d := 1) hk one_pos
    rw [mul_one] at this
    rw [hm, this, ← hm, Int.sign_mul_natAbs]
  change round m 1 = _
  rw [round_of_lt (by rwa [h1]), h1]

theorem canon_form {m : ℤ} (h : canon (fin m) = fin m) : ∃ k e, k ≤ 2 ^ 53 ∧ m.natAbs = k * 2 ^ e := by
  obtain ⟨h1, -⟩ := canon_fin h
  obtain ⟨k, e, hk, h2⟩ := rndTo_form m.natAbs 1 one_pos
  exact ⟨k, e, hk, by rw [← h1, h2]⟩

theorem canon_abs {x : B64} (h : canon x = x) : canon (PyFloat.abs x) = PyFloat.abs x := by
  cases x with
  | nan => rfl
  | inf b => rfl
  | fin m =>
    obtain ⟨k, e, hk, h1⟩ := canon_form h
    change canon (fin |m|) = fin |m|
    refine canon_of_form (k := k) (e := e) ?_ hk ?_
    · rwa [Int.natAbs_abs]
    · rw [Int.natAbs_abs]; exact (canon_fin h).2

theorem canon_infTimes (b : Bool) (m : ℤ) : canon (infTimes b m) = infTimes b m := by
  unfold infTimes
  split
  · rfl
  · split <;> rfl

theorem canon_add {x y : B64} (hx : canon x = x) (hy : canon y = y) : canon (add x y) = add x y := by
  cases x with
  | nan => rfl
  | inf a =>
    cases y with
    | nan => rfl
    | inf b =>
      unfold add
      simp only []
      split <;> rfl
    | fin n => rfl
  | fin m =>
    cases y with
    | nan => rfl
    | inf b => rfl
    | fin n =>
      change canon (if m = 0 then fin n else if n = 0 then fin m else round (m + n) 1) = _
      change _ = (if m = 0 then fin n else if n = 0 then fin m else round (m + n) 1)
      split
      · exact hy
      · split
        · exact hx
        · exact canon_round _ _ one_pos

theorem canon_mul (x y : B64) : canon (mul x y) = mul x y := by
  cases x with
  | nan => rfl
  | inf a =>
    cases y with
    | nan => rfl
    | inf b => rfl
    | fin n => exact canon_infTimes a n
  | fin m =>
    cases y with
    | nan => rfl
    | inf b => exact canon_infTimes b m
    | fin n => exact canon_round _ _ two_pow_1074_pos

theorem rndSqrt_form (N : ℕ) (h : N < 2 ^ 3172) (h0 : 2 ^ 1074 ≤ N) :
    ∃ k e, k ≤ 2 ^ 53 ∧ rndSqrt N = k * 2 ^ e ∧ rndSqrt N < 2 ^ 2098 := by
  have hs : Nat.sqrt N < 2 ^ 1586 := by
    rw [Nat.sqrt_lt, ← pow_add]; exact h
  have hs3 : 2 ^ 537 ≤ Nat.sqrt N := by
    rw [Nat.le_sqrt, ← pow_add]; exact h0
  have hne : Nat.sqrt N ≠ 0 := by
    have : 0 < 2 ^ 537 := Nat.two_pow_pos _
    omega
  have l0 : 537 ≤ Nat.log2 (Nat.sqrt N) := by
    rw [Nat.log2_eq_log_two]
    exact Nat.le_log_of_pow_le (by norm_num) hs3
  have l1 : Nat.log2 (Nat.sqrt N) < 1586 := (Nat.log2_lt hne).2 hs
  have l2 : Nat.sqrt N < 2 ^ (Nat.log2 (Nat.sqrt N) + 1) := Nat.lt_log2_self
  generalize hS : Nat.sqrt N = S at *
  generalize hL : Nat.log2 S = L at *
  have hr : S / 2 ^ (L - 53 + 1) < 2 ^ 53 := by
    rw [Nat.div_lt_iff_lt_mul (Nat.two_pow_pos _), ← pow_add]
    exact l2.trans_le (Nat.pow_le_pow_right (by norm_num) (by omega))
  have hb : ∀ k, k ≤ 2 ^ 53 → k * 2 ^ (L - 53 + 1) < 2 ^ 2098 := by
    intro k hk
    calc k * 2 ^ (L - 53 + 1) ≤ 2 ^ 53 * 2 ^ (L - 53 + 1) := Nat.mul_le_mul_right _ hk
      _ = 2 ^ (53 + (L - 53 + 1)) := (pow_add _ _ _).symm
      _ < 2 ^ 2098 := Nat.pow_lt_pow_right (by norm_num) (by omega)
  have hd : rndSqrt N = (if N ≤ ((2 * (S / 2 ^ (L - 53 + 1)) + 1) * 2 ^ (L - 53)) ^ 2 then S / 2 ^ (L - 53 + 1) * 2 ^ (L - 53 + 1)
      else (S / 2 ^ (L - 53 + 1) + 1) * 2 ^ (L - 53 + 1)) := by
    unfold rndSqrt
    simp only [hS, hL]
  rw [hd]
  split
  · exact ⟨_, _, hr.le, rfl, hb _ hr.le⟩
  · exact ⟨_, _, hr, rfl, hb _ hr⟩

theorem shifted_lt {n : ℕ} (h : n < 2 ^ 2098) : n * 2 ^ 1074 < 2 ^ 3172 := by
  have e : (2 : ℕ) ^ 3172 = 2 ^ 2098 * 2 ^ 1074 := (pow_add 2 2098 1074)
  have hp : 0 < 2 ^ 1074 := Nat.two_pow_pos _
  rw [e]
  generalize 2 ^ 1074 = A at *
  generalize 2 ^ 2098 = B at *
  exact Nat.mul_lt_mul_of_pos_right h hp

theorem infTimes_pos {b : Bool} {m : ℤ} (h : 0 < m) : infTimes b m = inf b := by
  unfold infTimes
  rw [if_neg h.ne', if_neg (by omega)]

theorem rndInt_scaled {m : ℤ} {A k e : ℕ} (hA : 0 < A) (hk : k ≤ 2 ^ 53) (h1 : m.natAbs = k * 2 ^ e) : rndInt (A * m) A = m := by
  unfold rndInt
  rw [Int.sign_mul, Int.sign_eq_one_of_pos (by exact_mod_cast hA), _root_.one_mul, Int.natAbs_mul, h1, Int.natAbs_natCast, mul_comm A,
    rndTo_exact hk hA, ← h1, Int.sign_mul_natAbs]

theorem sqrt_fin {m : ℤ} {y : B64} (h : sqrt (fin m) = .ok y) :
    (m = 0 ∧ y = fin 0) ∨ (m ≠ 0 ∧ y = fin (rndSqrt (m.natAbs * 2 ^ 1074))) := by
  unfold sqrt at h
  simp only [] at h
  generalize rndSqrt (m.natAbs * 2 ^ 1074) = r at *
  split at h
  · cases h
  · split at h
    · rename_i h0
      injection h with h
      exact .inl ⟨h0, h.symm⟩
    · rename_i h0
      injection h with h
      exact .inr ⟨h0, h.symm⟩

theorem canon_sqrt {x y : B64} (hx : canon x = x) (h : sqrt x = .ok y) : canon y = y := by
  cases x with
  | nan => cases h; rfl
  | inf b => cases b <;> cases h; rfl
  | fin m =>
    obtain ⟨-, hm⟩ := canon_fin hx
    have h1 := sqrt_fin h
    rcases h1 with ⟨h0, rfl⟩ | ⟨h0, rfl⟩
    · rw [h0] at hx; exact hx
    · have hm0 : 0 < m.natAbs := Int.natAbs_pos.2 h0
      obtain ⟨k, e, k1, k2, k3⟩ := rndSqrt_form _ (shifted_lt hm) (Nat.le_mul_of_pos_left _ hm0)
      exact canon_of_form (k := k) (e := e) (by rw [Int.natAbs_natCast]; exact k2) k1 (by rw [Int.natAbs_natCast]; exact k3)

theorem fin_mul_inf (m : ℤ) (b : Bool) : fin m * inf b = infTimes b m := rfl

theorem one_eq : (1 : B64) = fin (2 ^ 1074 : ℕ) := rfl

/-- 1 is neutral, for doubles. -/
theorem one_mul_canon {x : B64} (hx : canon x = x) : (1 : B64) * x = x := by
  rw [one_eq]
  have hp := two_pow_1074_pos
  cases x with
  | nan => rfl
  | inf b =>
    rw [fin_mul_inf]
    generalize 2 ^ 1074 = A at *
    exact infTimes_pos (by exact_mod_cast hp)
  | fin m =>
    rw [fin_mul_fin]
    obtain ⟨k, e, hk, h1⟩ := canon_form hx
    have h2 := rndInt_scaled hp hk h1
    rw [round_of_lt (by rw [h2]; exact (canon_fin hx).2), h2]

theorem neg_neg' (x : B64) : neg (neg x) = x := by
  cases x with
  | nan => rfl
  | inf b => simp [neg]
  | fin m => simp [neg]

theorem infTimes_neg (b : Bool) (m : ℤ) : infTimes b (-m) = neg (infTimes b m) := by
  unfold infTimes
  rcases lt_trichotomy m 0 with h | h | h
  · rw [if_neg (by omega), if_neg (by omega), if_neg (by omega), if_pos h]; simp [neg]
  · simp [h, neg]
  · rw [if_neg (by omega), if_pos (by omega), if_neg (by omega), if_neg (by omega)]; rfl

theorem infTimes_not (b : Bool) (m : ℤ) : infTimes (!b) m = neg (infTimes b m) := by
  unfold infTimes
  split
  · rfl
  · split <;> simp [neg]

/-- The sign of a product. -/
theorem mul_neg_left (x y : B64) : mul (neg x) y = neg (mul x y) := by
  cases x with
  | nan => rfl
  | inf a =>
    cases y with
    | nan => rfl
    | inf b => cases a <;> cases b <;> rfl
    | fin n => exact infTimes_not a n
  | fin m =>
    cases y with
    | nan => rfl
    | inf b => exact infTimes_neg b m
    | fin n =>
      have h := round_neg (m * n) (2 ^ 1074)
      rw [← neg_mul] at h
      exact h

theorem add_fin_cases (m n : ℤ) : add (fin m) (fin n) = if m = 0 then fin n else if n = 0 then fin m else round (m + n) 1 := rfl

/-- The sign of a sum. -/
theorem add_neg_neg (x y : B64) : add (neg x) (neg y) = neg (add x y) := by
  cases x with
  | nan => rfl
  | inf a =>
    cases y with
    | nan => rfl
    | inf b => cases a <;> cases b <;> rfl
    | fin n => rfl
  | fin m =>
    cases y with
    | nan => rfl
    | inf b => rfl
    | fin n =>
      change add (fin (-m)) (fin (-n)) = _
      rw [add_fin_cases, add_fin_cases]
      simp only [neg_eq_zero]
      split
      · rfl
      · split
        · rfl
        · rw [← neg_add, round_neg]

theorem abs_neg' (x : B64) : PyFloat.abs (neg x) = PyFloat.abs x := by
  cases x with
  | nan => rfl
  | inf b => rfl
  | fin m => exact congrArg fin (abs_neg m)

end B64

/-- A double. -/
structure D64 where
  x : B64
  ok : B64.canon x = x
  deriving DecidableEq

namespace D64

open B64

/-- The double nearest to a float. -/
def of (x : B64) : D64 := ⟨canon x, canon_canon x⟩

theorem of_x {x : B64} (h : canon x = x) : (of x).x = x := h

@[ext] theorem ext {a b : D64} (h : a.x = b.x) : a = b := by
  cases a; cases b; cases h; rfl

theorem zero_ok : canon (0 : B64) = 0 :=
  canon_of_form (k := 0) (e := 0) (m := 0) rfl (Nat.zero_le _) (Nat.two_pow_pos _)

theorem one_ok : canon (1 : B64) = 1 := by
  rw [one_eq]
  refine canon_of_form (k := 1) (e := 1074) ?_ (Nat.one_le_two_pow) ?_
  · rw [Int.natAbs_natCast, _root_.one_mul]
  · rw [Int.natAbs_natCast]; exact Nat.pow_lt_pow_right (by norm_num) (by norm_num)

instance : PyFloat D64 where
  zero := ⟨0, zero_ok⟩
  one := ⟨1, one_ok⟩
  add a b := of (a.x + b.x)
  sub a b := of (a.x - b.x)
  mul a b := of (a.x * b.x)
  neg a := of (-a.x)
  nan := of PyFloat.nan
  abs a := of (PyFloat.abs a.x)
  truediv a b := (PyFloat.truediv a.x b.x).map of
  sq a := (PyFloat.sq a.x).map of
  sqrt a := (PyFloat.sqrt a.x).map of
  two := of PyFloat.two
  eqb a b := PyFloat.eqb a.x b.x
  ltb a b := PyFloat.ltb a.x b.x
  isInf a := PyFloat.isInf a.x
  stepSize := of PyFloat.stepSize

theorem map_ne {α β : Type} {f : α → β} {r : PyRes α} (h : r ≠ .error .outOfFuel) : r.map f ≠ .error .outOfFuel := by
  cases r with
  | ok a => exact fun h => by cases h
  | error e =>
    intro h'
    apply h
    have : (Except.error e : PyRes β) = .error .outOfFuel := h'
    cases this; rfl

instance : Halts D64 where
  truediv a b := map_ne (Halts.truediv a.x b.x)
  sq a := map_ne (Halts.sq a.x)
  sqrt a := map_ne (Halts.sqrt a.x)

instance : PyOps D64 where
  floordiv a b := (PyOps.floordiv a.x b.x).map of
  mod a b := (PyOps.mod a.x b.x).map of
  pow a b := (PyOps.pow a.x b.x).map fun r => match r with
    | .real x => .real (of x)
    | .complex => .complex
  log a := (PyOps.log a.x).map of
  trunc a := (PyOps.trunc a.x).map of

instance : PyMath D64 where
  fn1 f a := (PyMath.fn1 f a.x).map of
  fn2 f a b := (PyMath.fn2 f a.x b.x).map of
  logb a b := (PyMath.logb a.x b.x).map of
  lcst _ _ := .ok (.flt (of PyFloat.nan))
  modf a := (of (PyMath.modf a.x).1, of (PyMath.modf a.x).2)
  ldexp a i := (PyMath.ldexp a.x i).map of
  frexp a := (of (PyMath.frexp a.x).1, (PyMath.frexp a.x).2)
  pow2 i := of (PyMath.pow2 i)
  fsum l := (PyMath.fsum (l.map D64.x)).map of
  ten := of PyMath.ten
  half := of PyMath.half
  erfCoef := of PyMath.erfCoef

theorem zero_x : (0 : D64).x = 0 := rfl
theorem one_x : (1 : D64).x = 1 := rfl
theorem neg_x (a : D64) : (-a).x = -a.x := by
  change canon (B64.neg a.x) = B64.neg a.x
  rw [canon_neg, a.ok]
theorem add_x (a b : D64) : (a + b).x = a.x + b.x := canon_add a.ok b.ok
theorem mul_x (a b : D64) : (a * b).x = a.x * b.x := canon_mul a.x b.x
theorem abs_x (a : D64) : (PyFloat.abs a).x = PyFloat.abs a.x := canon_abs a.ok

theorem sq_x {a y : D64} (h : PyFloat.sq a = .ok y) : PyFloat.sq a.x = .ok y.x := by
  change (PyFloat.sq a.x).map of = .ok y at h
  have hc : ∀ z, PyFloat.sq a.x = .ok z → canon z = z := by
    intro z hz
    cases ha : a.x with
    | nan => rw [ha] at hz; cases hz; rfl
    | inf b => rw [ha] at hz; cases hz; rfl
    | fin m =>
      rw [ha] at hz
      rw [sq_fin_round] at hz
      have hm := canon_round (m * m) _ two_pow_1074_pos
      generalize round (m * m) (2 ^ 1074) = p at *
      cases p <;> cases hz <;> exact hm
  cases hz : PyFloat.sq a.x with
  | error e => rw [hz] at h; cases h
  | ok z =>
    rw [hz] at h
    injection h with h
    rw [← h, of_x (hc z hz)]

theorem sqrt_x {a y : D64} (h : PyFloat.sqrt a = .ok y) : PyFloat.sqrt a.x = .ok y.x := by
  change (PyFloat.sqrt a.x).map of = .ok y at h
  cases hz : PyFloat.sqrt a.x with
  | error e => rw [hz] at h; cases h
  | ok z =>
    rw [hz] at h
    injection h with h
    rw [← h, of_x (canon_sqrt a.ok hz)]

noncomputable instance : Rounded D64 where
  val a := Rounded.val a.x
  Fin a := Rounded.Fin a.x
  u := Rounded.u B64
  η := Rounded.η B64
  u_nonneg := Rounded.u_nonneg
  η_nonneg := Rounded.η_nonneg
  fin_zero := by rw [zero_x]; exact Rounded.fin_zero
  val_zero := by rw [zero_x]; exact Rounded.val_zero
  fin_one := by rw [one_x]; exact Rounded.fin_one
  val_one := by rw [one_x]; exact Rounded.val_one
  add a b h := by rw [add_x] at h ⊢; exact Rounded.add _ _ h
  zero_add a h := by rw [add_x, zero_x] at h ⊢; exact Rounded.zero_add _ h
  mul a b h := by rw [mul_x] at h ⊢; exact Rounded.mul _ _ h
  abs a h := by rw [abs_x] at h ⊢; exact Rounded.abs _ h
  sq a y h hy := Rounded.sq _ _ (sq_x h) hy
  sqrt a y h hy := Rounded.sqrt _ _ (sqrt_x h) hy
  ltb_zero a h h0 := Rounded.ltb_zero a.x h (by
    change PyFloat.ltb a.x (0 : D64).x = false at h0
    rwa [zero_x] at h0)
  isInf a h := Rounded.isInf a.x h
  eqb_zero a h := Rounded.eqb_zero a.x (by
    change PyFloat.eqb a.x (0 : D64).x = true at h
    rwa [zero_x] at h)

end D64

/-- The laws of signs and of the neutral elements, which hold exactly for doubles (zeros of both signs being equal). -/
class SignLaws (F : Type) [PyFloat F] : Prop where
  one_mul : ∀ a : F, 1 * a = a
  zero_add : ∀ a : F, 0 + a = a
  neg_mul : ∀ a b : F, -a * b = -(a * b)
  neg_add : ∀ a b : F, -a + -b = -(a + b)
  abs_neg : ∀ a : F, PyFloat.abs (-a) = PyFloat.abs a

instance : SignLaws D64 where
  one_mul a := by
    ext1; rw [D64.mul_x, D64.one_x]; exact B64.one_mul_canon a.ok
  zero_add a := by
    ext1; rw [D64.add_x, D64.zero_x]
    cases a.x <;> rfl
  neg_mul a b := by
    ext1; rw [D64.mul_x, D64.neg_x, D64.neg_x, D64.mul_x]; exact B64.mul_neg_left _ _
  neg_add a b := by
    ext1; rw [D64.add_x, D64.neg_x, D64.neg_x, D64.neg_x, D64.add_x]; exact B64.add_neg_neg _ _
  abs_neg a := by
    ext1; rw [D64.abs_x, D64.neg_x, D64.abs_x]; exact B64.abs_neg' _

end Unc
