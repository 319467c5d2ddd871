import Verif.Py.B64Exact
import Verif.Lemmas.SetStd
import Verif.Spec.World

/-! Rounding is monotonic: helpers for C97. -/

set_option autoImplicit false

namespace Unc

namespace B64

/-! ### Rounding of natural numbers -/

theorem rdiv_mono {n m d : ℕ} (h : n ≤ m) : rdiv n d ≤ rdiv m d := by
  have hq : n / d ≤ m / d := Nat.div_le_div_right h
  unfold rdiv
  rcases hq.lt_or_eq with hq | hq
  · split_ifs <;> omega
  · have e1 := Nat.div_add_mod n d
    have e2 := Nat.div_add_mod m d
    rw [hq] at e1 ⊢
    generalize m / d = q at *
    generalize d * q = p at *
    split_ifs <;> omega

theorem le_rdiv {n d b : ℕ} (hd : 0 < d) (h : d * b ≤ n) : b ≤ rdiv n d := by
  have : b ≤ n / d := (Nat.le_div_iff_mul_le hd).2 (by rwa [mul_comm])
  unfold rdiv
  split_ifs <;> omega

theorem rndTo_mono {n m d : ℕ} (hd : 0 < d) (h : n ≤ m) : rndTo n d ≤ rndTo m d := by
  have hq : n / d ≤ m / d := Nat.div_le_div_right h
  have hl : Nat.log2 (n / d) ≤ Nat.log2 (m / d) := by
    simp only [Nat.log2_eq_log_two]; exact Nat.log_mono_right hq
  unfold rndTo
  have ln : n / d < 2 ^ (Nat.log2 (n / d) + 1) := Nat.lt_log2_self
  have lm : m / d ≠ 0 → 2 ^ Nat.log2 (m / d) ≤ m / d := Nat.log2_self_le
  rcases (show Nat.log2 (n / d) + 1 - 53 ≤ Nat.log2 (m / d) + 1 - 53 by omega).lt_or_eq with hk | hk
  · have hm0 : m / d ≠ 0 := by
      intro h0
      rw [h0] at hk
      simp at hk
    have lm := lm hm0
    generalize Nat.log2 (n / d) = a at *
    generalize Nat.log2 (m / d) = b at *
    have h1 : rdiv n (d * 2 ^ (a + 1 - 53)) ≤ 2 ^ 53 := by
      refine rdiv_le (by positivity) ?_
      have := Nat.lt_mul_of_div_lt ln hd
      refine this.trans_le ?_
      rw [mul_comm, mul_assoc, ← pow_add]
      exact Nat.mul_le_mul_left _ (Nat.pow_le_pow_right (by norm_num) (by omega))
    have h2 : 2 ^ 52 ≤ rdiv m (d * 2 ^ (b + 1 - 53)) := by
      refine le_rdiv (by positivity) ?_
      rw [mul_assoc, ← pow_add, show b + 1 - 53 + 52 = b by omega]
      calc d * 2 ^ b ≤ d * (m / d) := Nat.mul_le_mul_left _ lm
        _ ≤ m := Nat.mul_div_le _ _
    calc _ ≤ 2 ^ 53 * 2 ^ (a + 1 - 53) := Nat.mul_le_mul_right _ h1
      _ = 2 ^ (53 + (a + 1 - 53)) := (pow_add _ _ _).symm
      _ ≤ 2 ^ (52 + (b + 1 - 53)) := Nat.pow_le_pow_right (by norm_num) (by omega)
      _ = 2 ^ 52 * 2 ^ (b + 1 - 53) := pow_add _ _ _
      _ ≤ _ := Nat.mul_le_mul_right _ h2
  · rw [hk]
    exact Nat.mul_le_mul_right _ (rdiv_mono h)

theorem rndSqrt_mono {N M : ℕ} (hN : 2 ^ 1074 ≤ N) (h : N ≤ M) : rndSqrt N ≤ rndSqrt M := by
  have hs : Nat.sqrt N ≤ Nat.sqrt M := Nat.sqrt_le_sqrt h
  have hs3 : 2 ^ 537 ≤ Nat.sqrt N := by
    rw [Nat.le_sqrt]
    calc 2 ^ 537 * 2 ^ 537 = 2 ^ 1074 := by rw [← pow_add]
      _ ≤ N := hN
  have hl : Nat.log2 (Nat.sqrt N) ≤ Nat.log2 (Nat.sqrt M) := by
    simp only [Nat.log2_eq_log_two]; exact Nat.log_mono_right hs
  have hlog : 537 ≤ Nat.log2 (Nat.sqrt N) := by
    rw [Nat.log2_eq_log_two]; exact Nat.le_log_of_pow_le (by norm_num) hs3
  unfold rndSqrt
  have ln : Nat.sqrt N < 2 ^ (Nat.log2 (Nat.sqrt N) + 1) := Nat.lt_log2_self
  have p537 : 0 < 2 ^ 537 := Nat.two_pow_pos _
  have lm : 2 ^ Nat.log2 (Nat.sqrt M) ≤ Nat.sqrt M := Nat.log2_self_le (by omega)
  simp only
  rcases (show Nat.log2 (Nat.sqrt N) - 53 ≤ Nat.log2 (Nat.sqrt M) - 53 by omega).lt_or_eq with hk | hk
  · generalize Nat.log2 (Nat.sqrt N) = a at *
    generalize Nat.log2 (Nat.sqrt M) = b at *
    generalize Nat.sqrt N = s at *
    generalize Nat.sqrt M = t at *
    have h1 : s / 2 ^ (a - 53 + 1) < 2 ^ 53 := by
      refine Nat.div_lt_of_lt_mul ?_
      rw [← pow_add, show a - 53 + 1 + 53 = a + 1 by omega]
      exact ln
    have h2 : 2 ^ 52 ≤ t / 2 ^ (b - 53 + 1) := by
      rw [Nat.le_div_iff_mul_le (by positivity), ← pow_add, show 52 + (b - 53 + 1) = b by omega]
      exact lm
    generalize s / 2 ^ (a - 53 + 1) = r at *
    generalize t / 2 ^ (b - 53 + 1) = r' at *
    have h3 : (r + 1) * 2 ^ (a - 53 + 1) ≤ r' * 2 ^ (b - 53 + 1) := by
      calc (r + 1) * 2 ^ (a - 53 + 1) ≤ 2 ^ 53 * 2 ^ (a - 53 + 1) := Nat.mul_le_mul_right _ h1
        _ = 2 ^ (53 + (a - 53 + 1)) := (pow_add _ _ _).symm
        _ ≤ 2 ^ (52 + (b - 53 + 1)) := Nat.pow_le_pow_right (by norm_num) (by omega)
        _ = 2 ^ 52 * 2 ^ (b - 53 + 1) := pow_add _ _ _
        _ ≤ _ := Nat.mul_le_mul_right _ h2
    have h4 : r * 2 ^ (a - 53 + 1) ≤ (r + 1) * 2 ^ (a - 53 + 1) := Nat.mul_le_mul_right _ (by omega)
    have h5 : r' * 2 ^ (b - 53 + 1) ≤ (r' + 1) * 2 ^ (b - 53 + 1) := Nat.mul_le_mul_right _ (by omega)
    split_ifs <;> omega
  · rw [hk]
    generalize Nat.log2 (Nat.sqrt M) - 53 = k at *
    have hr : Nat.sqrt N / 2 ^ (k + 1) ≤ Nat.sqrt M / 2 ^ (k + 1) := Nat.div_le_div_right hs
    generalize Nat.sqrt N / 2 ^ (k + 1) = r at *
    generalize Nat.sqrt M / 2 ^ (k + 1) = r' at *
    rcases hr.lt_or_eq with hr | rfl
    · have h3 : (r + 1) * 2 ^ (k + 1) ≤ r' * 2 ^ (k + 1) := Nat.mul_le_mul_right _ hr
      have h4 : r * 2 ^ (k + 1) ≤ (r + 1) * 2 ^ (k + 1) := Nat.mul_le_mul_right _ (by omega)
      have h5 : r' * 2 ^ (k + 1) ≤ (r' + 1) * 2 ^ (k + 1) := Nat.mul_le_mul_right _ (by omega)
      split_ifs <;> omega
    · have h4 : r * 2 ^ (k + 1) ≤ (r + 1) * 2 ^ (k + 1) := Nat.mul_le_mul_right _ (by omega)
      split_ifs <;> omega

/-! ### Positive floats -/

/-- `0 <= a <= b`. -/
def NLe : B64 → B64 → Prop
  | fin m, fin n => 0 ≤ m ∧ m ≤ n
  | fin m, inf false => 0 ≤ m
  | inf false, inf false => True
  | _, _ => False

/-- A natural number, or infinity if it is too large. -/
def up (n : ℕ) : B64 := if n < 2 ^ 2098 then fin n else inf false

theorem up_mono {n m : ℕ} (h : n ≤ m) : NLe (up n) (up m) := by
  unfold up
  generalize 2 ^ 2098 = B
  split_ifs
  · exact ⟨Int.natCast_nonneg _, by exact_mod_cast h⟩
  · exact Int.natCast_nonneg _
  · omega
  · trivial

theorem up_cases (n : ℕ) : up n = fin n ∨ up n = inf false := by
  unfold up
  generalize 2 ^ 2098 = B
  split
  · exact .inl rfl
  · exact .inr rfl

theorem NLe_inf {m : ℤ} (h : 0 ≤ m) : NLe (fin m) (inf false) := h

theorem up_le_inf (n : ℕ) : NLe (up n) (inf false) := by
  have h := up_cases n
  generalize up n = x at *
  rcases h with rfl | rfl
  · exact NLe_inf (Int.natCast_nonneg _)
  · trivial

theorem NLe.zero (a : B64) (h : NLe a a) : NLe (fin 0) a := by
  cases a with
  | nan => exact h.elim
  | inf s => cases s <;> [exact le_rfl; exact h.elim]
  | fin m => exact ⟨le_rfl, h.1⟩

theorem abs_round (m : ℤ) (d : ℕ) : PyFloat.abs (round m d) = up (rndTo m.natAbs d) := by
  have hr : (rndInt m d).natAbs = rndTo m.natAbs d := by
    unfold rndInt
    rw [Int.natAbs_mul]
    rcases lt_trichotomy m 0 with h | rfl | h
    · rw [Int.sign_eq_neg_one_of_neg h]; simp
    · have : rndTo 0 d = 0 := by simp [rndTo, rdiv, eq_comm]
      simp [this]
    · rw [Int.sign_eq_one_of_pos h]; simp
  unfold round up
  rw [hr]
  split
  · change fin |rndInt m d| = _
    rw [Int.abs_eq_natAbs, hr]
  · rfl

theorem round_nonneg {m : ℤ} {d : ℕ} (h : 0 ≤ m) : round m d = up (rndTo m.natAbs d) := by
  have hr : rndInt m d = rndTo m.natAbs d := by
    unfold rndInt
    rcases h.eq_or_lt with rfl | h
    · have : rndTo 0 d = 0 := by simp [rndTo, rdiv, eq_comm]
      simp [this]
    · rw [Int.sign_eq_one_of_pos h]; simp
  unfold round up
  rw [hr, Int.natAbs_natCast, decide_eq_false (not_lt.2 h)]

/-! ### The operations of `std_dev` -/

attribute [local irreducible] round rndTo up

theorem fin_mul_fin (k m : ℤ) : fin k * fin m = round (k * m) (2 ^ 1074) := rfl

theorem sq_fin_round (m : ℤ) : PyFloat.sq (fin m) = checked (round (m * m) (2 ^ 1074)) := rfl

theorem two_pow_1074_pos : 0 < 2 ^ 1074 := Nat.two_pow_pos _

/-- The product of two finite floats. -/
def prod (k m : ℤ) : ℕ := rndTo (k * m).natAbs (2 ^ 1074)

theorem abs_fin_mul (k m : ℤ) : PyFloat.abs (fin k * fin m) = up (prod k m) := by
  rw [fin_mul_fin, abs_round]; rfl

theorem sq_fin_up (m : ℤ) : PyFloat.sq (fin m) = checked (up (prod m m)) := by
  rw [sq_fin_round, round_nonneg (mul_self_nonneg m)]; rfl

theorem prod_mono {k l m n : ℤ} (h1 : k.natAbs ≤ l.natAbs) (h2 : m.natAbs ≤ n.natAbs) : prod k m ≤ prod l n := by
  unfold prod
  have := two_pow_1074_pos
  generalize 2 ^ 1074 = D at *
  refine rndTo_mono this ?_
  rw [Int.natAbs_mul, Int.natAbs_mul]
  exact Nat.mul_le_mul h1 h2


/-- A product, multiplied by a larger number. -/
theorem abs_mul_mono {d s t : B64} (h : NLe s t) (hs : s ≠ fin 0) (hn : PyFloat.abs (d * t) ≠ nan) :
    NLe (PyFloat.abs (d * s)) (PyFloat.abs (d * t)) := by
  have hi : ∀ (b : Bool) {m : ℤ}, m ≠ 0 → PyFloat.abs (infTimes b m) = inf false := by
    intro b m hm
    unfold infTimes
    rw [if_neg hm]
    split <;> rfl
  cases d with
  | nan => exact (hn (by cases t <;> rfl)).elim
  | inf b =>
    have ht : t ≠ fin 0 := by
      rintro rfl
      cases s with
      | nan => exact h.elim
      | inf c => cases c <;> exact h.elim
      | fin m => exact hs (by rw [le_antisymm h.2 h.1])
    have key : ∀ x : B64, x ≠ fin 0 → x ≠ nan → PyFloat.abs (inf b * x) = inf false := by
      intro x h0 hx
      cases x with
      | nan => exact (hx rfl).elim
      | inf c => rfl
      | fin m => exact hi b fun h => h0 (h ▸ rfl)
    rw [key s hs (by rintro rfl; exact h), key t ht (by rintro rfl; cases s <;> first | exact h | (rename_i c; cases c <;> exact h))]
    trivial
  | fin k =>
    cases t with
    | nan => cases s <;> first | exact h.elim | (rename_i c; cases c <;> exact h.elim)
    | inf c =>
      have hk : k ≠ 0 := by
        rintro rfl
        exact hn rfl
      have e : PyFloat.abs (fin k * inf c) = inf false := hi c hk
      rw [e]
      cases s with
      | nan => exact h.elim
      | inf b =>
        have e : PyFloat.abs (fin k * inf b) = inf false := hi b hk
        rw [e]
        trivial
      | fin m =>
        rw [abs_fin_mul]
        have hc : c = false := by cases c <;> [rfl; exact h.elim]
        exact up_le_inf _
    | fin n =>
      cases s with
      | nan => exact h.elim
      | inf c => cases c <;> exact h.elim
      | fin m =>
        rw [abs_fin_mul, abs_fin_mul]
        exact up_mono (prod_mono le_rfl (by have := h.1; have := h.2; omega))

theorem abs_refl (x : B64) (h : PyFloat.abs x ≠ nan) : NLe (PyFloat.abs x) (PyFloat.abs x) := by
  cases x with
  | nan => exact (h rfl).elim
  | inf b => trivial
  | fin m => exact ⟨abs_nonneg m, le_rfl⟩

/-- A result of an operation. -/
def Rep : B64 → Prop
  | fin m => ∃ n : ℕ, m = n ∧ rndTo n 1 = n ∧ up n = fin n
  | inf _ => True
  | nan => False

theorem rndTo_idem (n d : ℕ) (hd : 0 < d) : rndTo (rndTo n d) 1 = rndTo n d := by
  obtain ⟨k, e, hk, h⟩ := rndTo_form n d hd
  have := rndTo_exact (e := e) hk one_pos
  rwa [mul_one, ← h] at this

theorem up_rep {n : ℕ} (h : rndTo n 1 = n) : Rep (up n) := by
  rcases up_cases n with h1 | h1 <;> rw [h1]
  · exact ⟨n, rfl, h, h1⟩
  · trivial

theorem prod_idem (k m : ℤ) : rndTo (prod k m) 1 = prod k m := by
  unfold prod
  exact rndTo_idem _ _ two_pow_1074_pos

theorem NLe.ne_nan {a b : B64} (h : NLe a b) : a ≠ nan ∧ b ≠ nan := by
  constructor
  · rintro rfl; exact h
  · rintro rfl; cases a <;> first | exact h | (rename_i c; cases c <;> exact h)

theorem sq_mono {c d z : B64} (h : NLe c d) (hz : PyFloat.sq d = .ok z) :
    (∃ y, PyFloat.sq c = .ok y ∧ NLe y z ∧ Rep y ∧ Rep z) ∨ (z = inf false ∧ PyFloat.sq c = .error .overflowError) := by
  cases d with
  | nan => exact (h.ne_nan.2 rfl).elim
  | inf b =>
    have hz : z = inf false := by cases hz; rfl
    subst hz
    cases c with
    | nan => exact h.elim
    | inf c => exact .inl ⟨inf false, rfl, trivial, trivial, trivial⟩
    | fin m =>
      rw [sq_fin_up]
      have r1 := up_rep (prod_idem m m)
      cases hu : up (prod m m) with
      | nan => rw [hu] at r1; exact r1.elim
      | inf b => exact .inr ⟨rfl, rfl⟩
      | fin p =>
        rw [hu] at r1
        obtain ⟨n, rfl, h2⟩ := r1
        exact .inl ⟨_, rfl, Int.natCast_nonneg _, ⟨n, rfl, h2⟩, trivial⟩
  | fin n =>
    cases c with
    | nan => exact h.elim
    | inf c => cases c <;> exact h.elim
    | fin m =>
      rw [sq_fin_up] at hz
      have h0 : m.natAbs ≤ n.natAbs := by have := h.1; have := h.2; omega
      have h1 := up_mono (prod_mono h0 h0)
      have r1 := up_rep (prod_idem m m)
      have r2 := up_rep (prod_idem n n)
      rw [sq_fin_up]
      left
      generalize up (prod m m) = a at *
      generalize up (prod n n) = b at *
      cases b with
      | nan => exact r2.elim
      | inf b => cases hz
      | fin q =>
        cases hz
        cases a with
        | nan => exact h1.elim
        | inf c => cases c <;> exact h1.elim
        | fin p => exact ⟨_, rfl, h1, r1, r2⟩

theorem add_rep {m n : ℕ} (hm : Rep (fin m)) (hn : Rep (fin n)) : fin m + fin n = up (rndTo (m + n) 1) := by
  change (if (m : ℤ) = 0 then fin n else if (n : ℤ) = 0 then fin m else round (m + n) 1) = _
  have key : ∀ {m : ℕ}, Rep (fin m) → fin m = up (rndTo m 1) := by
    rintro m ⟨k, hk, h1, h2⟩
    have : m = k := by exact_mod_cast hk
    subst this
    rw [h1, h2]
  split
  · rename_i h
    have : m = 0 := by exact_mod_cast h
    subst this
    rw [zero_add]; exact key hn
  · split
    · rename_i h
      have : n = 0 := by exact_mod_cast h
      subst this
      rw [add_zero]; exact key hm
    · rw [round_nonneg (by positivity)]
      congr 1

theorem add_mono {a b y z : B64} (h1 : NLe a b) (h2 : NLe y z) (ra : Rep a) (rb : Rep b) (ry : Rep y) (rz : Rep z) :
    NLe (a + y) (b + z) ∧ Rep (a + y) ∧ Rep (b + z) := by
  have nn : ∀ {a b : B64}, NLe a b → Rep a → (∃ n : ℕ, a = fin n) ∨ a = inf false := by
    intro a b h r
    cases a with
    | nan => exact r.elim
    | inf c =>
      cases c with
      | true => exact h.elim
      | false => exact .inr rfl
    | fin m => obtain ⟨n, rfl, -⟩ := r; exact .inl ⟨n, rfl⟩
  have nn' : ∀ {a b : B64}, NLe a b → Rep b → (∃ n : ℕ, b = fin n) ∨ b = inf false := by
    intro a b h r
    cases b with
    | nan => exact r.elim
    | inf c =>
      cases c with
      | true => cases a <;> first | exact h.elim | (rename_i c; cases c <;> exact h.elim)
      | false => exact .inr rfl
    | fin m => obtain ⟨n, rfl, -⟩ := r; exact .inl ⟨n, rfl⟩
  have rr : ∀ m n : ℕ, Rep (up (rndTo (m + n) 1)) := fun m n => up_rep (rndTo_idem _ _ one_pos)
  have ui := up_le_inf
  rcases nn h1 ra with ⟨m, rfl⟩ | rfl
  · rcases nn h2 ry with ⟨p, rfl⟩ | rfl
    · rw [add_rep ra ry]
      rcases nn' h1 rb with ⟨n, rfl⟩ | rfl
      · rcases nn' h2 rz with ⟨q, rfl⟩ | rfl
        · rw [add_rep rb rz]
          refine ⟨up_mono (rndTo_mono one_pos ?_), rr _ _, rr _ _⟩
          have e1 : (m : ℤ) ≤ n := h1.2
          have e2 : (p : ℤ) ≤ q := h2.2
          omega
        · exact ⟨ui _, rr _ _, trivial⟩
      · have e : inf false + z = inf false := by rcases nn' h2 rz with ⟨q, rfl⟩ | rfl <;> rfl
        rw [e]
        exact ⟨ui _, rr _ _, trivial⟩
    · have hz : z = inf false := by
        rcases nn' h2 rz with ⟨q, rfl⟩ | rfl
        · exact h2.elim
        · rfl
      subst hz
      have e : b + inf false = inf false := by rcases nn' h1 rb with ⟨q, rfl⟩ | rfl <;> rfl
      rw [e]
      exact ⟨trivial, trivial, trivial⟩
  · have hb : b = inf false := by
      rcases nn' h1 rb with ⟨q, rfl⟩ | rfl
      · exact h1.elim
      · rfl
    subst hb
    have e : ∀ {y z : B64}, NLe y z → inf false + z = inf false := by
      intro y z h
      cases z with
      | nan => exact (h.ne_nan.2 rfl).elim
      | inf c =>
        cases c with
        | true => cases y <;> first | exact h.elim | (rename_i c; cases c <;> exact h.elim)
        | false => rfl
      | fin m => rfl
    have e2 : inf false + y = inf false := by rcases nn h2 ry with ⟨q, rfl⟩ | rfl <;> rfl
    rw [e h2, e2]
    exact ⟨trivial, trivial, trivial⟩

theorem sqrt_mono {t t' s' : B64} (h : NLe t t') (hs : PyFloat.sqrt t' = .ok s') : ∃ s, PyFloat.sqrt t = .ok s ∧ NLe s s' := by
  have e : ∀ {m : ℤ}, 0 ≤ m → ∃ n : ℕ, PyFloat.sqrt (fin m) = .ok (fin n) ∧ (m = 0 → n = 0) ∧
      (0 < m → n = rndSqrt (m.natAbs * 2 ^ 1074)) := by
    intro m hm
    change ∃ n : ℕ, (if m < 0 then (.error .valueError : PyRes B64) else if m = 0 then .ok (fin 0) else
      .ok (fin (rndSqrt (m.natAbs * 2 ^ 1074)))) = _ ∧ _
    rw [if_neg (not_lt.2 hm)]
    rcases hm.eq_or_lt with rfl | hp
    · exact ⟨0, rfl, fun _ => rfl, fun h => (lt_irrefl _ h).elim⟩
    · rw [if_neg hp.ne']
      exact ⟨_, rfl, fun h => (hp.ne' h).elim, fun _ => rfl⟩
  cases t with
  | nan => exact h.elim
  | inf c =>
    cases c with
    | true => exact h.elim
    | false =>
      cases t' with
      | nan => exact h.elim
      | inf d =>
        cases d with
        | true => exact h.elim
        | false => cases hs; exact ⟨_, rfl, trivial⟩
      | fin n => exact h.elim
  | fin m =>
    cases t' with
    | nan => exact h.elim
    | inf d =>
      cases d with
      | true => exact h.elim
      | false =>
        cases hs
        obtain ⟨n, hn, -⟩ := e (show 0 ≤ m from h)
        exact ⟨_, hn, Int.natCast_nonneg _⟩
    | fin n =>
      obtain ⟨a, ha, ha0, ha1⟩ := e h.1
      obtain ⟨b, hb, hb0, hb1⟩ := e (h.1.trans h.2)
      rw [hb] at hs
      cases hs
      refine ⟨_, ha, Int.natCast_nonneg _, ?_⟩
      rcases h.1.eq_or_lt with rfl | hp
      · rw [ha0 rfl]; exact Int.natCast_nonneg _
      · rw [ha1 hp, hb1 (hp.trans_le h.2)]
        have h2 : m.natAbs ≤ n.natAbs := by have := h.1; have := h.2; omega
        have h3 : 1 ≤ m.natAbs := by omega
        have := @rndSqrt_mono (m.natAbs * 2 ^ 1074) (n.natAbs * 2 ^ 1074)
        generalize 2 ^ 1074 = D at *
        exact_mod_cast this (Nat.le_mul_of_pos_left _ h3) (Nat.mul_le_mul_right _ h2)

/-! ### Sums of squares -/

theorem sumSquares_nan (l : List B64) {t : B64} (h : sumSquares l nan = .ok t) : t = nan := by
  induction l with
  | nil => cases h; rfl
  | cons x l ih =>
    simp only [sumSquares] at h
    cases hx : PyFloat.sq x with
    | error e => rw [hx] at h; cases h
    | ok y => rw [hx] at h; exact ih h

theorem sq_cases {x z : B64} (h : PyFloat.sq x = .ok z) : z = nan ∨ z = inf false ∨ ∃ m, z = fin m := by
  cases x with
  | nan => cases h; exact .inl rfl
  | inf b => cases h; exact .inr (.inl rfl)
  | fin m =>
    rw [sq_fin_up] at h
    generalize up (prod m m) = a at *
    cases a with
    | nan => cases h; exact .inl rfl
    | inf b => cases h
    | fin q => cases h; exact .inr (.inr ⟨q, rfl⟩)

theorem sumSquares_inf (l : List B64) {t : B64} (h : sumSquares l (inf false) = .ok t) (hn : t ≠ nan) : t = inf false := by
  induction l with
  | nil => cases h; rfl
  | cons x l ih =>
    simp only [sumSquares] at h
    cases hx : PyFloat.sq x with
    | error e => rw [hx] at h; cases h
    | ok y =>
      rw [hx] at h
      rcases sq_cases hx with rfl | rfl | ⟨m, rfl⟩
      · exact (hn (sumSquares_nan l h)).elim
      · exact ih h
      · exact ih h

/-- `a <= b`, if `b` is not NaN. -/
def LeUnlessNan (a b : B64) : Prop := b ≠ nan → NLe a b

theorem sumSquares_mono {l l' : List B64} (hl : List.Forall₂ LeUnlessNan l l') {a a' t' : B64} (ra : Rep a) (ra' : Rep a')
    (ha : NLe a a') (h : sumSquares l' a' = .ok t') (hn : t' ≠ nan) :
    (∃ t, sumSquares l a = .ok t ∧ NLe t t') ∨ (t' = inf false ∧ sumSquares l a = .error .overflowError) := by
  induction hl generalizing a a' with
  | nil => cases h; exact .inl ⟨a, rfl, ha⟩
  | @cons x x' l l' hx hl ih =>
    simp only [sumSquares] at h
    cases hz : PyFloat.sq x' with
    | error e => rw [hz] at h; cases h
    | ok z =>
      rw [hz] at h
      simp only at h
      have hx' : x' ≠ nan := by
        rintro rfl
        cases hz
        refine hn (sumSquares_nan l' (t := t') ?_)
        have : a' + nan = nan := by cases a' <;> rfl
        rwa [this] at h
      rcases sq_mono (hx hx') hz with ⟨y, hy, hyz, ry, rz⟩ | ⟨rfl, he⟩
      · obtain ⟨h1, h2, h3⟩ := add_mono ha hyz ra ra' ry rz
        simp only [sumSquares, hy]
        exact ih h2 h3 h1 h
      · right
        simp only [sumSquares, he]
        refine ⟨sumSquares_inf l' ?_ hn, trivial⟩
        have : a' + inf false = inf false := by
          cases a' with
          | nan => exact ra'.elim
          | inf c =>
            cases c with
            | true => cases a <;> first | exact ha.elim | (rename_i c; cases c <;> exact ha.elim)
            | false => rfl
          | fin m => rfl
        rwa [this] at h

theorem component_mono {d s s' : B64} (h : NLe s s') : LeUnlessNan (specComponent d s) (specComponent d s') := by
  intro hn
  unfold specComponent at hn ⊢
  have key : ∀ x : B64, PyFloat.eqb x 0 = true ↔ x = fin 0 := by
    intro x
    cases x with
    | nan => exact ⟨fun h => (by cases h), fun h => (by cases h)⟩
    | inf c => exact ⟨fun h => (by cases h), fun h => (by cases h)⟩
    | fin m =>
      change (m == 0) = true ↔ _
      rw [beq_iff_eq, fin.injEq]
  by_cases h1 : s = fin 0
  · rw [if_pos ((key s).2 h1)]
    by_cases h2 : s' = fin 0
    · rw [if_pos ((key s').2 h2)]
      exact ⟨le_rfl, le_rfl⟩
    · rw [if_neg fun h => h2 ((key s').1 h)] at hn ⊢
      exact NLe.zero _ (abs_refl _ hn)
  · have h2 : s' ≠ fin 0 := by
      rintro rfl
      cases s with
      | nan => exact h.elim
      | inf c => cases c <;> exact h.elim
      | fin m => exact h1 (by rw [le_antisymm h.2 h.1])
    rw [if_neg fun h => h2 ((key s').1 h)] at hn ⊢
    rw [if_neg fun h => h1 ((key s).1 h)]
    exact abs_mul_mono h h1 hn

theorem component_refl (d s : B64) : LeUnlessNan (specComponent d s) (specComponent d s) := by
  intro hn
  unfold specComponent at hn ⊢
  split
  · exact ⟨le_rfl, le_rfl⟩
  · rename_i h
    rw [if_neg h] at hn
    exact abs_refl _ hn

theorem errorLoop_mono {V V' : List (VarCell B64)} (d : Derivs B64)
    (h : ∀ v ∈ d.map Prod.fst, ∃ c c', V[v]? = some c ∧ V'[v]? = some c' ∧ (c.std = c'.std ∨ NLe c.std c'.std)) :
    ∃ l l', errorLoop V d = .ok l ∧ errorLoop V' d = .ok l' ∧ List.Forall₂ LeUnlessNan (l.map Prod.snd) (l'.map Prod.snd) := by
  induction d with
  | nil => exact ⟨[], [], rfl, rfl, .nil⟩
  | cons p d ih =>
    obtain ⟨v, x⟩ := p
    obtain ⟨l, l', h1, h2, h3⟩ := ih fun u hu => h u (by simp only [List.map_cons, List.mem_cons]; exact .inr hu)
    obtain ⟨c, c', hc, hc', hle⟩ := h v (by simp)
    have e : ∀ (V : List (VarCell B64)) (c : VarCell B64) (l : Derivs B64), V[v]? = some c → errorLoop V d = .ok l →
        errorLoop V ((v, x) :: d) = .ok ((v, specComponent x c.std) :: l) := by
      intro V c l hc h
      simp only [errorLoop, hc, h, specComponent]
      split <;> rfl
    refine ⟨_, _, e V c l hc h1, e V' c' l' hc' h2, .cons ?_ h3⟩
    rcases hle with hle | hle
    · rw [hle]; exact component_refl _ _
    · exact component_mono hle

/-- The standard deviation, when the standard deviation of the variables are larger. -/
theorem affStdDev_mono {w : World B64} {V : List (VarCell B64)} {u : UF B64} {w' : World B64} {d : Derivs B64}
    (hd : w.derivatives u = (w', .ok d)) (hw : w'.vars = w.vars)
    (h : ∀ v ∈ d.map Prod.fst, ∃ c c', w.vars[v]? = some c ∧ V[v]? = some c' ∧ (c.std = c'.std ∨ NLe c.std c'.std))
    {s' : B64} (hs : ((w.withV V).affStdDev u).2 = .ok s') (hn : s' ≠ nan) :
    (∃ s, (w.affStdDev u).2 = .ok s ∧ NLe s s') ∨ (s' = inf false ∧ (w.affStdDev u).2 = .error .overflowError) := by
  obtain ⟨l, l', h1, h2, h3⟩ := errorLoop_mono d h
  simp only [World.affStdDev, World.errorComponents, World.derivatives_withV, hd] at hs ⊢
  simp only [World.withV, h2, hw, h1] at hs ⊢
  cases ht : sumSquares (l'.map Prod.snd) 0 with
  | error e => rw [ht] at hs; cases hs
  | ok t' =>
    rw [ht] at hs
    simp only at hs
    have ht' : t' ≠ nan := by
      rintro rfl
      cases hs
      exact hn rfl
    have r0 : Rep (fin 0) := ⟨0, rfl, by have := rndTo_exact (k := 0) (e := 0) (d := 1) (by norm_num) one_pos; simpa using this,
      by unfold up; rw [if_pos (Nat.two_pow_pos _)]⟩
    have z0 : (0 : B64) = fin 0 := rfl
    rw [z0] at ht ⊢
    rcases sumSquares_mono h3 r0 r0 ⟨le_rfl, le_rfl⟩ ht ht' with ⟨t, h4, h5⟩ | ⟨rfl, h4⟩
    · rw [h4]
      exact .inl (sqrt_mono h5 hs)
    · rw [h4]
      right
      cases hs
      exact ⟨rfl, rfl⟩

end B64

end Unc
