import Verif.Lemmas.CorrelatedRounding
import Verif.Props.C82_CorrRounding

/-
C91: correlated values, with floating-point arithmetic. The bounds are defined in `Spec/CorrelatedRounding.lean`.
-/

namespace Unc

set_option autoImplicit false

/-- The bound, when there is no underflow: a relative error of `n + 9` roundings. -/
theorem C91_bound {n : ℕ} {u : ℝ} (a b v : Fin n → ℝ) (hv : ∀ k, 0 ≤ v k) :
    correlatedBound u 0 a b v = ((1 + u) ^ (n + 9) - 1) * ∑ k, |a k * b k * v k| := by
  unfold correlatedBound
  have h : ∀ k, corrTermMax u 0 (a k) (b k) (v k) = (1 + u) ^ 9 * |a k * b k * v k| := by
    intro k
    unfold corrTermMax coefMax
    rw [abs_mul, abs_mul, abs_of_nonneg (hv k)]
    ring
  rw [Finset.sum_congr rfl fun k _ => h k, ← Finset.mul_sum]
  ring

section
variable {F : Type} [PyMath F] [Halts F] [RoundedDiv F] [RoundedSign F] {n : ℕ}

/-- **C91**: after any history, let `correlated_values_norm([(n_0, s_0), ...], R, tags)` be called, where the eigensolver returns
the (finite) eigenvalues `l` and the eigenvectors `Q`. The call succeeds; the numbers have exactly the nominal values `n_i`; and each
element of their covariance matrix that is finite differs from `s_i s_j P_ij`, where P is the matrix that `l` and `Q` represent
(without the negative eigenvalues), by no more than the bound. -/
theorem C91_correlated_values_norm (cs : List (Cmd F)) (hn : 0 < n) {eigh : EighFn F} (nom s : Fin n → F) (R : List (List F))
    (l : Fin n → F) (Q : Fin n → Fin n → F) (he : eigh R = .ok (List.ofFn l, ofRows Q)) (hl : ∀ k, Rounded.Fin (l k))
    (tags : Option (List (Option String))) (htags : ∀ L, tags = some L → L.length = n) :
    ∃ (cmds : List (Cmd F)) (x : Fin n → Arg F),
      correlatedValuesNorm eigh (after cs).env.length (List.ofFn fun i => (nom i, s i)) R tags = .ok (cmds, List.ofFn x) ∧
      (∀ i, sees (cs ++ cmds) (.nominal (x i)) = .val (.flt (nom i))) ∧
      ∀ M, sees (cs ++ cmds) (.covarianceMatrix (List.ofFn x)) = .matrix M →
        ∀ (i j : Fin n) (y : F), entry M i j = some y → Rounded.Fin y →
          |Rounded.val y - Rounded.val (s i) * Rounded.val (s j) * rebuilt l Q i j| ≤
            correlatedBound (Rounded.u F) (Rounded.η F) (fun k => Rounded.val (Q i k) * Rounded.val (s i))
              (fun k => Rounded.val (Q j k) * Rounded.val (s j)) (fun k => max (Rounded.val (l k)) 0) := by
  obtain ⟨t, ht⟩ : ∃ t : Fin n → Option String, tags.getD (List.replicate n none) = List.ofFn t := by
    apply eq_ofFn
    cases tags with
    | none => simp
    | some L => exact htags L rfl
  choose σ hσ1 hσ2 hσ3 hσ4 using fun k => sqrt_clamp (hl k)
  obtain ⟨g0, st, h0, -⟩ := RRel.afterAll cs
  obtain ⟨g, hg⟩ := h0.correlated (nom := nom) (σ := σ) (A := fun i k => Q i k * s i) (t := t) hσ2
  have hlen : st.env.length = (after cs).env.length := by rw [h0.env]; simp
  refine ⟨_, _, correlatedValuesNorm_fl hn he hσ1 ht, ?_⟩
  have hx : ∀ i : Fin n, (Arg.ref ((after cs).env.length + n + i)).revalUnc ((st.env ++ List.ofFn fun k : Fin n =>
            some (RVal.unc ⟨(0 : F), Grad.single (st.vars.length + k), some (st.vars.length + k)⟩)) ++
          List.ofFn fun i => some (RVal.unc ⟨nom i,
            Grad.ofDict (List.ofFn fun k : Fin n => (st.vars.length + k.val, Q i k * s i)), none⟩)) =
      some ⟨nom i, Grad.ofDict (List.ofFn fun k : Fin n => (st.vars.length + k.val, Q i k * s i)), none⟩ := by
    intro i
    simp only [Arg.revalUnc, Arg.reval, ← hlen]
    rw [List.getElem?_append_right (by simp)]
    simp
  have hu : ∀ (i : Fin n) (u : UF F), (Arg.ref ((after cs).env.length + n + i) : Arg F).evalUnc
      (after (cs ++ ((List.ofFn fun k => Cmd.ufloat 0 (σ k) (t k)) ++ (List.ofFn fun i => Cmd.affine (nom i)
            (List.ofFn fun k : Fin n => (Arg.ref ((after cs).env.length + k), Q i k * s i)))))).env = some u →
      u.nom = nom i ∧ g u.lin = Grad.ofDict (List.ofFn fun k : Fin n => (st.vars.length + k.val, Q i k * s i)) := by
    intro i u hu
    have h1 := hg.evalUnc (Arg.ref ((after cs).env.length + n + i))
    rw [hu, hx i] at h1
    simp only [Option.map_some, Option.some.injEq, UF.rabs, RQ.mk.injEq] at h1
    exact ⟨h1.1.symm, h1.2.1.symm⟩
  refine ⟨fun i => ?_, fun M hM i j y hy hf => ?_⟩
  · have h1 := hg.evalUnc (Arg.ref ((after cs).env.length + n + i))
    rw [hx i] at h1
    obtain ⟨u, hu1, -⟩ := Option.map_eq_some_iff.mp h1.symm
    obtain ⟨hu2, -⟩ := hu i u hu1
    simp only [sees, Machine.step]
    unfold Arg.evalUnc at hu1
    split at hu1
    · rename_i u' hev
      cases hu1
      rw [hev, ← hu2]
      rfl
    · cases hu1
  · obtain ⟨x1, x2, u1, u2, m1, m2, n1, n2, hs⟩ := RRel.sees_covSum _ hg _ M hM i j y hy
    simp only [List.getElem?_ofFn, i.2, j.2, dite_true, Option.some.injEq] at m1 m2
    subst m1 m2
    obtain ⟨-, g1⟩ := hu i u1 n1
    obtain ⟨-, g2⟩ := hu j u2 n2
    have hv := hg.vars
    simp only at hv
    rcases hs with ⟨D1, D2, vs, h1, h2, h3, h4, h5, h6⟩ | ⟨D1, D2, vs, h1, h2, h3, h4, h5, h6⟩
    · rw [← hv] at h6
      simp only [g1] at h1
      simp only [g2] at h2
      exact covSum_correlated hσ4 rfl h1 h2 h3 h4 h6 hf
    · rw [← hv] at h6
      simp only [g2] at h1
      simp only [g1] at h2
      have h := covSum_correlated hσ4 rfl h1 h2 h3 h4 h6 hf
      have e1 : rebuilt l Q j i = rebuilt l Q i j := Finset.sum_congr rfl fun k _ => by ring
      have e2 : ∀ a b v : Fin n → ℝ, correlatedBound (Rounded.u F) (Rounded.η F) a b v =
          correlatedBound (Rounded.u F) (Rounded.η F) b a v := by
        intro a b v
        unfold correlatedBound
        congr 1
        · congr 1
          refine Finset.sum_congr rfl fun k _ => ?_
          unfold corrTermMax
          rw [mul_comm (coefMax _ _ (a k))]
        · refine Finset.sum_congr rfl fun k _ => ?_
          rw [mul_comm (a k)]
      rwa [e1, e2, mul_comm (Rounded.val (s j))] at h

omit [Halts F] in
/-- A null standard deviation is that of a null variance. -/
theorem npSqrt_zero {x : F} (hx : Rounded.Fin x) (h0 : 0 ≤ Rounded.val x) (h : Rounded.val (npSqrt x) = 0) :
    Rounded.val x = 0 := by
  obtain ⟨-, h2⟩ := npSqrt_rounded hx h0
  rw [h, zero_sub, abs_neg, abs_of_nonneg (Real.sqrt_nonneg _)] at h2
  have h3 := RoundedSign.u_lt_one (F := F)
  have h4 := Real.sqrt_nonneg (Rounded.val x)
  have h5 : √(Rounded.val x) = 0 := by nlinarith
  exact (Real.sqrt_eq_zero h0).1 h5

omit [Halts F] in
theorem normFl_pos {x : F} (hx : Rounded.Fin x) (h0 : 0 < Rounded.val x) : normFl x = npSqrt x := by
  unfold normFl
  split_ifs with h
  · exact absurd (npSqrt_zero hx h0.le (Rounded.eqb_zero _ h).2) h0.ne'
  · rfl

omit [Halts F] in
/-- **C91**: the matrix whose eigenvalues are calculated is the exact correlation matrix `C_ij / (√C_ii √C_jj)`, up to the bound of
C82. -/
theorem C91_normalized (C : Fin n → Fin n → F) (i j : Fin n) (hi : Rounded.Fin (C i i)) (hj : Rounded.Fin (C j j))
    (pi : 0 < Rounded.val (C i i)) (pj : 0 < Rounded.val (C j j)) (hf : Rounded.Fin (normalizedFl C i j)) :
    |Rounded.val (normalizedFl C i j) - Rounded.val (C i j) / (√(Rounded.val (C i i)) * √(Rounded.val (C j j)))| ≤
      corrBound (Rounded.u F) (Rounded.η F) (Rounded.val (C i j) / (√(Rounded.val (C i i)) * √(Rounded.val (C j j))))
        √(Rounded.val (C i i)) := by
  unfold normalizedFl at hf ⊢
  rw [normFl_pos hi pi, normFl_pos hj pj] at hf ⊢
  obtain ⟨a1, a2⟩ := npSqrt_rounded hi pi.le
  obtain ⟨b1, b2⟩ := npSqrt_rounded hj pj.le
  obtain ⟨d1, d2⟩ := npDiv_rounded hf a1
  obtain ⟨-, e2⟩ := npDiv_rounded d1 b1
  exact corr_real Rounded.u_nonneg RoundedSign.u_lt_one Rounded.η_nonneg (Real.sqrt_pos.2 pi) (Real.sqrt_pos.2 pj) a2 b2 e2 d2

/-- Effect of the two divisions, once multiplied by the standard deviations. -/
theorem divided_back {u η c t a b r : ℝ} (hu : 0 ≤ u) (ha : a ≠ 0) (hb : b ≠ 0)
    (ht : |t - c / b| ≤ u * |c / b| + η) (hr : |r - t / a| ≤ u * |t / a| + η) :
    |a * b * r - c| ≤ ((1 + u) ^ 2 - 1) * |c| + (1 + u) * η * |b| + η * |a * b| := by
  have h1 : |b * t - c| ≤ u * |c| + η * |b| := by
    have e : b * t - c = b * (t - c / b) := by field_simp
    have e2 : |b| * |c / b| = |c| := by rw [← abs_mul]; congr 1; field_simp
    rw [e, abs_mul]
    nlinarith [mul_le_mul_of_nonneg_left ht (abs_nonneg b)]
  have h2 : |a * b * r - b * t| ≤ u * |b * t| + η * |a * b| := by
    have e : a * b * r - b * t = a * b * (r - t / a) := by field_simp
    have e2 : |a * b| * |t / a| = |b * t| := by rw [← abs_mul]; congr 1; field_simp
    rw [e, abs_mul]
    nlinarith [mul_le_mul_of_nonneg_left hr (abs_nonneg (a * b))]
  have h3 : |b * t| ≤ (1 + u) * |c| + η * |b| := by
    have := abs_add_le (b * t - c) c
    rw [sub_add_cancel] at this
    linarith
  have h4 := abs_add_le (a * b * r - b * t) (b * t - c)
  rw [sub_add_sub_cancel] at h4
  nlinarith [mul_le_mul_of_nonneg_left h3 hu]

/-- **C91**: after any history, let `correlated_values([n_0, ...], C, tags)` be called, for a matrix C of floats with finite
variances `C_ii ≥ 0`, such that `C_ij = 0` if a variance `C_ii` or `C_jj` is null (all the positive semi-definite matrices are so).
If the eigensolver returns finite eigenvalues `l` and eigenvectors `Q` that represent its argument (a finite matrix) up to ε, then
the call succeeds; the numbers have exactly the nominal values `n_i`; and each element of their covariance matrix that is finite
differs from `C_ij` by no more than the bound, where `s_i` are the square roots of the variances, calculated with floats. -/
theorem C91_correlated_values (cs : List (Cmd F)) (hn : 0 < n) {eigh : EighFn F} (nom : Fin n → F) (C : Fin n → Fin n → F)
    (hC : ∀ i, Rounded.Fin (C i i) ∧ 0 ≤ Rounded.val (C i i))
    (h0 : ∀ i j, Rounded.val (C i i) = 0 ∨ Rounded.val (C j j) = 0 → Rounded.val (C i j) = 0)
    (hR : ∀ i j, Rounded.Fin (normalizedFl C i j)) (l : Fin n → F) (Q : Fin n → Fin n → F) (ε : ℝ)
    (he : eigh (ofRows (normalizedFl C)) = .ok (List.ofFn l, ofRows Q)) (hl : ∀ k, Rounded.Fin (l k))
    (hε : ∀ i j, |rebuilt l Q i j - Rounded.val (normalizedFl C i j)| ≤ ε)
    (tags : Option (List (Option String))) (htags : ∀ L, tags = some L → L.length = n) :
    ∃ (cmds : List (Cmd F)) (x : Fin n → Arg F) (s : Fin n → ℝ),
      correlatedValues eigh (after cs).env.length (List.ofFn nom) (ofRows C) tags = .ok (cmds, List.ofFn x) ∧
      (∀ i, |s i - √(Rounded.val (C i i))| ≤ Rounded.u F * √(Rounded.val (C i i))) ∧
      (∀ i, sees (cs ++ cmds) (.nominal (x i)) = .val (.flt (nom i))) ∧
      ∀ M, sees (cs ++ cmds) (.covarianceMatrix (List.ofFn x)) = .matrix M →
        ∀ (i j : Fin n) (y : F), entry M i j = some y → Rounded.Fin y →
          |Rounded.val y - Rounded.val (C i j)| ≤
            correlatedBound (Rounded.u F) (Rounded.η F) (fun k => Rounded.val (Q i k) * s i)
              (fun k => Rounded.val (Q j k) * s j) (fun k => max (Rounded.val (l k)) 0) +
            |s i * s j| * ε + (((1 + Rounded.u F) ^ 2 - 1) * |Rounded.val (C i j)| +
              (1 + Rounded.u F) * Rounded.η F * |s j| + Rounded.η F * |s i * s j|) := by
  obtain ⟨cmds, x, h1, h2, h3⟩ := C91_correlated_values_norm cs hn nom (fun i => npSqrt (C i i)) (ofRows (normalizedFl C)) l Q he hl
    tags htags
  refine ⟨cmds, x, fun i => Rounded.val (npSqrt (C i i)), by rw [correlatedValues_fl]; exact h1,
    fun i => (npSqrt_rounded (hC i).1 (hC i).2).2, h2, fun M hM i j y hy hf => ?_⟩
  have hu := Rounded.u_nonneg (F := F)
  have hη := Rounded.η_nonneg (F := F)
  have k1 := h3 M hM i j y hy hf
  set a := Rounded.val (npSqrt (C i i)) with ha
  set b := Rounded.val (npSqrt (C j j)) with hb
  have k2 : |a * b * rebuilt l Q i j - a * b * Rounded.val (normalizedFl C i j)| ≤ |a * b| * ε := by
    rw [← mul_sub, abs_mul]
    exact mul_le_mul_of_nonneg_left (hε i j) (abs_nonneg _)
  have k3 : |a * b * Rounded.val (normalizedFl C i j) - Rounded.val (C i j)| ≤
      ((1 + Rounded.u F) ^ 2 - 1) * |Rounded.val (C i j)| + (1 + Rounded.u F) * Rounded.η F * |b| +
        Rounded.η F * |a * b| := by
    by_cases hz : Rounded.val (C i i) = 0 ∨ Rounded.val (C j j) = 0
    · have hab : a * b = 0 := by
        have z : ∀ k, Rounded.val (C k k) = 0 → Rounded.val (npSqrt (C k k)) = 0 := by
          intro k hk
          have := (npSqrt_rounded (hC k).1 (hC k).2).2
          rw [hk, Real.sqrt_zero, mul_zero, sub_zero] at this
          exact abs_eq_zero.1 (le_antisymm this (abs_nonneg _))
        rcases hz with hz | hz
        · rw [ha, z i hz, zero_mul]
        · rw [hb, z j hz, mul_zero]
      rw [h0 i j hz, hab]
      simp only [zero_mul, sub_zero, abs_zero, mul_zero, zero_add, add_zero]
      exact mul_nonneg (mul_nonneg (by linarith) hη) (abs_nonneg _)
    · rw [not_or] at hz
      have pi := lt_of_le_of_ne (hC i).2 (Ne.symm hz.1)
      have pj := lt_of_le_of_ne (hC j).2 (Ne.symm hz.2)
      have hf' := hR i j
      unfold normalizedFl at hf' ⊢
      rw [normFl_pos (hC i).1 pi, normFl_pos (hC j).1 pj] at hf' ⊢
      obtain ⟨d1, d2⟩ := npDiv_rounded hf' (npSqrt_rounded (hC i).1 (hC i).2).1
      obtain ⟨-, e2⟩ := npDiv_rounded d1 (npSqrt_rounded (hC j).1 (hC j).2).1
      exact divided_back hu (fun h => hz.1 (npSqrt_zero (hC i).1 (hC i).2 h)) (fun h => hz.2 (npSqrt_zero (hC j).1 (hC j).2 h))
        e2 d2
  have k4 := abs_add_le (Rounded.val y - a * b * rebuilt l Q i j)
    (a * b * rebuilt l Q i j - a * b * Rounded.val (normalizedFl C i j))
  have k5 := abs_add_le (Rounded.val y - a * b * Rounded.val (normalizedFl C i j))
    (a * b * Rounded.val (normalizedFl C i j) - Rounded.val (C i j))
  rw [sub_add_sub_cancel] at k4 k5
  linarith

end

/-! ### The hypotheses are met -/

/-- `√2/2`, as a double -/
def exHalfRoot : ℤ := 6369051672525773 * 2 ^ 1021

/-- `correlated_values([5, 7], [[4, 6], [6, 9]])`, with the eigenvalues and the eigenvectors of `[[1, 1], [1, 1]]` that NumPy
calculates. -/
def exC91C : Fin 2 → Fin 2 → B64 := fun i j => .fin (![![4, 6], ![6, 9]] i j * 2 ^ 1074)
def exC91l : Fin 2 → B64 := fun k => .fin (![0, 2] k * 2 ^ 1074)
def exC91Q : Fin 2 → Fin 2 → B64 := fun i k => .fin (![![-exHalfRoot, exHalfRoot], ![exHalfRoot, exHalfRoot]] i k)
def exC91nom : Fin 2 → B64 := fun i => .fin (![5, 7] i * 2 ^ 1074)
def exC91eigh : EighFn B64 := fun _ => .ok (List.ofFn exC91l, ofRows exC91Q)

theorem B64.val_int (m : ℤ) : Rounded.val (B64.fin (m * 2 ^ 1074)) = m := by
  change ((m * 2 ^ 1074 : ℤ) : ℝ) * (2 : ℝ)⁻¹ ^ 1074 = m
  rw [Int.cast_mul, Int.cast_pow, inv_pow, mul_assoc, Int.cast_ofNat, mul_inv_cancel₀ (by positivity), mul_one]

theorem exHalfRoot_val : Rounded.val (B64.fin exHalfRoot) = 6369051672525773 / 2 ^ 53 := by
  change ((6369051672525773 * 2 ^ 1021 : ℤ) : ℝ) * (2 : ℝ)⁻¹ ^ 1074 = _
  rw [Int.cast_mul, Int.cast_pow, inv_pow, show (1074 : ℕ) = 1021 + 53 from rfl, pow_add, mul_inv, mul_assoc, Int.cast_ofNat,
    Int.cast_ofNat, ← mul_assoc ((2 : ℝ) ^ 1021), mul_inv_cancel₀ (by positivity), one_mul, div_eq_mul_inv]

theorem exC91_normalized (i j : Fin 2) : normalizedFl exC91C i j = .fin (1 * 2 ^ 1074) := by
  have h : ∀ i j : Fin 2, decide (normalizedFl exC91C i j = .fin (1 * 2 ^ 1074)) = true := by decide +kernel
  exact of_decide_eq_true (h i j)

/-- The hypotheses of `C91_correlated_values` (and of `C91_correlated_values_norm`) are satisfied on doubles. -/
example : (∀ i, Rounded.Fin (exC91C i i) ∧ 0 ≤ Rounded.val (exC91C i i)) ∧
    (∀ i j, Rounded.val (exC91C i i) = 0 ∨ Rounded.val (exC91C j j) = 0 → Rounded.val (exC91C i j) = 0) ∧
    (∀ i j, Rounded.Fin (normalizedFl exC91C i j)) ∧
    exC91eigh (ofRows (normalizedFl exC91C)) = .ok (List.ofFn exC91l, ofRows exC91Q) ∧ (∀ k, Rounded.Fin (exC91l k)) ∧
    ∀ i j, |rebuilt exC91l exC91Q i j - Rounded.val (normalizedFl exC91C i j)| ≤ (2 : ℝ)⁻¹ ^ 51 := by
  have pos : ∀ i, 0 < Rounded.val (exC91C i i) := by
    intro i
    fin_cases i <;> (unfold exC91C; rw [B64.val_int]; norm_num)
  refine ⟨fun i => ⟨trivial, (pos i).le⟩, fun i j h => ?_, fun i j => by rw [exC91_normalized]; trivial, rfl, fun k => trivial, ?_⟩
  · rcases h with h | h
    · exact absurd h (pos i).ne'
    · exact absurd h (pos j).ne'
  · have l0 : Rounded.val (exC91l 0) = 0 := by
      unfold exC91l; rw [B64.val_int]; norm_num
    have l1 : Rounded.val (exC91l 1) = 2 := by
      unfold exC91l; rw [B64.val_int]; norm_num
    have q1 : ∀ i, Rounded.val (exC91Q i 1) = 6369051672525773 / 2 ^ 53 := by
      intro i
      rw [← exHalfRoot_val]
      fin_cases i <;> rfl
    intro i j
    rw [exC91_normalized, B64.val_int]
    unfold rebuilt
    rw [Fin.sum_univ_two, l0, l1, q1, q1]
    norm_num [abs_le]

/-- What is observed: the covariance matrix is `[[4, 6], [6, 9]]`, up to rounding errors
(`[[4.000000000000002, 6.000000000000003], [6.000000000000003, 9.000000000000004]]`). -/
example : ∃ cmds, correlatedValues exC91eigh 0 (List.ofFn exC91nom) (ofRows exC91C) none = .ok (cmds, [.ref 2, .ref 3]) ∧
    (sees cmds (.covarianceMatrix [.ref 2, .ref 3])).two =
      some (72057594037927968 * 2 ^ 1020, 108086391056891952 * 2 ^ 1020, 162129586585337920 * 2 ^ 1020) := by
  have h : (match correlatedValues exC91eigh 0 (List.ofFn exC91nom) (ofRows exC91C) none with
    | .ok (cmds, [.ref 2, .ref 3]) => (sees cmds (.covarianceMatrix [.ref 2, .ref 3])).two
    | _ => none) = some (72057594037927968 * 2 ^ 1020, 108086391056891952 * 2 ^ 1020, 162129586585337920 * 2 ^ 1020) := by
    decide +kernel
  generalize correlatedValues exC91eigh 0 (List.ofFn exC91nom) (ofRows exC91C) none = r at h ⊢
  split at h
  · exact ⟨_, rfl, h⟩
  · cases h

end Unc
