import Verif.Spec.ConcurrentCorr
import Verif.Props.C82_CorrRounding
import Verif.Props.C90_CovThreads

/-
C92: a thread calculates a correlation matrix while other threads change the standard deviations of variables.
-/

namespace Unc

set_option autoImplicit false

section any
variable {F : Type} [PyMath F] [Halts F]

/-- **C92**. `correlation_matrix(xs)` returns, whatever the other threads do, once it did some number `N` of operations. -/
theorem C92_returns (cs : List (Cmd F)) (xs : List (Arg F)) (h : ∀ x ∈ xs, ∃ D, sees cs (.derivatives x) = .dict D) :
    ∃ N, ∀ es : List (Event F), N ≤ es.countP Option.isNone → corrDuring cs xs es ≠ none := by
  obtain ⟨N, hN⟩ := C90_returns cs xs h
  refine ⟨N, fun es hes hc => hN es hes ?_⟩
  simpa [corrDuring] using hc

omit [Halts F] in
theorem corrDuring_ok {cs : List (Cmd F)} {xs : List (Arg F)} {es : List (Event F)} {R : List (List F)}
    (h : corrDuring cs xs es = some (.ok R)) :
    ∃ M, covDuring cs xs es = some (.matrix M) ∧ correlationMatrix M = .ok R := by
  unfold corrDuring at h
  cases hs : covDuring cs xs es with
  | none => rw [hs] at h; cases h
  | some o =>
    rw [hs, Option.map_some, Option.some.injEq] at h
    cases o with
    | matrix M => exact ⟨M, rfl, h⟩
    | err e => cases h
    | _ => cases h

/-- **C92**. Whatever the other threads do, the result is a square matrix with as many lines as there are numbers — unless the
square of a standard deviation that some variable had during the call fails, in which case the call has the exception of this square, or
there is no number. -/
theorem C92_shape (cs : List (Cmd F)) (xs : List (Arg F)) (h : ∀ x ∈ xs, ∃ D, sees cs (.derivatives x) = .dict D)
    (es : List (Event F)) (r : PyRes (List (List F))) (hes : corrDuring cs xs es = some r) :
    (xs ≠ [] ∧ ∃ R, r = .ok R ∧ R.length = xs.length ∧ ∀ row ∈ R, row.length = xs.length) ∨
      (xs = [] ∧ r = .error .valueError) ∨
      ∃ e, r = .error e ∧ ∃ x ∈ xs, ∃ v p s, p <+: es ∧ seesKeyStd (duringAll cs xs p) x v = .val (.flt s) ∧ PyFloat.sq s = .error e := by
  unfold corrDuring at hes
  cases hs : covDuring cs xs es with
  | none => rw [hs] at hes; cases hes
  | some o =>
    rw [hs, Option.map_some, Option.some.injEq] at hes
    rcases C90_symmetric cs xs h es o hs with ⟨M, rfl, s1, s2, -⟩ | ⟨e, rfl, he⟩
    · simp only at hes
      by_cases hx : xs = []
      · subst hx
        refine Or.inr (Or.inl ⟨rfl, ?_⟩)
        rw [← hes, List.length_eq_zero_iff.mp s1]
        rfl
      · refine Or.inl ⟨hx, ?_⟩
        cases hR : correlationMatrix M with
        | error e =>
          unfold correlationMatrix at hR
          split at hR
          next hM =>
            exfalso
            rw [List.isEmpty_iff] at hM
            subst hM
            exact hx (List.length_eq_zero_iff.mp s1.symm)
          next => cases hR
        | ok R =>
          obtain ⟨-, c1, c2, -⟩ := correlationMatrix_entry (by rw [s1]; exact s2) hR
          rw [s1] at c1 c2
          exact ⟨R, by rw [← hes, hR], c1, c2⟩
    · exact Or.inr (Or.inr ⟨e, hes.symm, he⟩)

/-- **C92**. If no standard deviation of the variables changes during the call, then the matrix is the one of a thread that is not
interrupted, whatever else the other threads do. -/
theorem C92_unchanged (cs : List (Cmd F)) (xs : List (Arg F)) (h : ∀ x ∈ xs, ∃ D, sees cs (.derivatives x) = .dict D)
    (es : List (Event F))
    (hc : ∀ p, p <+: es → ∀ x ∈ xs, ∀ v, seesKeyStd (duringAll cs xs p) x v = seesKeyStd (duringAll cs xs []) x v)
    (r : PyRes (List (List F))) (hes : corrDuring cs xs es = some r) : r = seesCorrelation (duringAll cs xs []) xs := by
  unfold corrDuring at hes
  cases hs : covDuring cs xs es with
  | none => rw [hs] at hes; cases hes
  | some o =>
    rw [hs, Option.map_some, Option.some.injEq] at hes
    have := C90_unchanged cs xs h es hc o hs
    unfold seesCorrelation
    rw [← this, ← hes]
    cases o <;> rfl

end any

section rounded
variable {F : Type} [PyMath F] [Halts F] [RoundedDiv F]

/-- **C92**. Whatever the other threads do: the elements of the correlation matrix are the quotients of the elements of the covariance
matrix which was read, `c/(√vi √vj)`, up to the bound. -/
theorem C92_correlation (hu : Rounded.u F < 1) (cs : List (Cmd F)) (xs : List (Arg F))
    (h : ∀ x ∈ xs, ∃ D, sees cs (.derivatives x) = .dict D) (es : List (Event F)) (M R : List (List F))
    (hM : covDuring cs xs es = some (.matrix M)) (hR : corrDuring cs xs es = some (.ok R)) (i j : Nat) (c vi vj r : F)
    (hc : entry M i j = some c) (hi : entry M i i = some vi) (hj : entry M j j = some vj)
    (fi : Rounded.Fin vi) (pi : 0 < Rounded.val vi) (fj : Rounded.Fin vj) (pj : 0 < Rounded.val vj)
    (hr : entry R i j = some r) (fr : Rounded.Fin r) :
    |Rounded.val r - Rounded.val c / (√(Rounded.val vi) * √(Rounded.val vj))| ≤
      corrBound (Rounded.u F) (Rounded.η F) (Rounded.val c / (√(Rounded.val vi) * √(Rounded.val vj)))
        (√(Rounded.val vi)) := by
  obtain ⟨M', h1, h2⟩ := corrDuring_ok hR
  rw [hM] at h1
  cases h1
  rcases C90_symmetric cs xs h es _ hM with ⟨M', e, s1, s2, -⟩ | ⟨e, he, -⟩
  · cases e
    obtain ⟨-, -, -, c3⟩ := correlationMatrix_entry (by rw [s1]; exact s2) h2
    rw [c3 i j c vi vj hc hi hj, Option.some.injEq] at hr
    subst hr
    obtain ⟨a1, a2⟩ := npSqrt_rounded fi pi.le
    obtain ⟨b1, b2⟩ := npSqrt_rounded fj pj.le
    obtain ⟨d1, d2⟩ := npDiv_rounded fr a1
    obtain ⟨-, e2⟩ := npDiv_rounded d1 b1
    exact corr_real Rounded.u_nonneg hu Rounded.η_nonneg (Real.sqrt_pos.2 pi) (Real.sqrt_pos.2 pj) a2 b2 e2 d2
  · cases he

/-- **C92**. Whatever the other threads do, the elements of the diagonal are 1, up to the bound. -/
theorem C92_diagonal (hu : Rounded.u F < 1) (cs : List (Cmd F)) (xs : List (Arg F))
    (h : ∀ x ∈ xs, ∃ D, sees cs (.derivatives x) = .dict D) (es : List (Event F)) (M R : List (List F))
    (hM : covDuring cs xs es = some (.matrix M)) (hR : corrDuring cs xs es = some (.ok R)) (i : Nat) (v r : F)
    (hi : entry M i i = some v) (fi : Rounded.Fin v) (pi : 0 < Rounded.val v)
    (hr : entry R i i = some r) (fr : Rounded.Fin r) :
    |Rounded.val r - 1| ≤ corrBound (Rounded.u F) (Rounded.η F) 1 (√(Rounded.val v)) := by
  have h := C92_correlation hu cs xs h es M R hM hR i i v v v r hi hi hi fi pi fi pi hr fr
  rwa [Real.mul_self_sqrt pi.le, div_self pi.ne'] at h

/-- **C92**. Whatever the other threads do, the matrix is symmetric, up to the bounds. -/
theorem C92_symmetric (hu : Rounded.u F < 1) (cs : List (Cmd F)) (xs : List (Arg F))
    (h : ∀ x ∈ xs, ∃ D, sees cs (.derivatives x) = .dict D) (es : List (Event F)) (M R : List (List F))
    (hM : covDuring cs xs es = some (.matrix M)) (hR : corrDuring cs xs es = some (.ok R)) (i j : Nat) (c vi vj r r' : F)
    (hc : entry M i j = some c) (hi : entry M i i = some vi) (hj : entry M j j = some vj)
    (fi : Rounded.Fin vi) (pi : 0 < Rounded.val vi) (fj : Rounded.Fin vj) (pj : 0 < Rounded.val vj)
    (hr : entry R i j = some r) (fr : Rounded.Fin r) (hr' : entry R j i = some r') (fr' : Rounded.Fin r') :
    |Rounded.val r - Rounded.val r'| ≤
      corrBound (Rounded.u F) (Rounded.η F) (Rounded.val c / (√(Rounded.val vi) * √(Rounded.val vj)))
        (√(Rounded.val vi)) +
      corrBound (Rounded.u F) (Rounded.η F) (Rounded.val c / (√(Rounded.val vi) * √(Rounded.val vj)))
        (√(Rounded.val vj)) := by
  have hs : entry M i j = entry M j i := by
    rcases C90_symmetric cs xs h es _ hM with ⟨M', e, -, -, s3⟩ | ⟨e, he, -⟩
    · cases e; exact s3 i j
    · cases he
  have h1 := C92_correlation hu cs xs h es M R hM hR i j c vi vj r hc hi hj fi pi fj pj hr fr
  have h2 := C92_correlation hu cs xs h es M R hM hR j i c vj vi r' (hs ▸ hc) hj hi fj pj fi pi hr' fr'
  rw [mul_comm (√(Rounded.val vj))] at h2
  calc |Rounded.val r - Rounded.val r'| ≤
      |Rounded.val r - Rounded.val c / (√(Rounded.val vi) * √(Rounded.val vj))| +
        |Rounded.val c / (√(Rounded.val vi) * √(Rounded.val vj)) - Rounded.val r'| := abs_sub_le _ _ _
    _ ≤ _ := by rw [abs_sub_comm (_ / _)]; exact add_le_add h1 h2

/-- **C92**, partial: if at most one variable `w` changes during the call, then each element of the matrix is close to the correlation
calculated with a covariance and two variances that the numbers have at some moments of the call. (Full claim: the matrix is the
correlation matrix of some moment. It is false: `C92_fails`.) -/
theorem C92_element_partial (hu : Rounded.u F < 1) (cs : List (Cmd F)) (xs : List (Arg F))
    (h : ∀ x ∈ xs, ∃ D, sees cs (.derivatives x) = .dict D) (es : List (Event F)) (w : VarId)
    (hc : ∀ p, p <+: es → ∀ x ∈ xs, ∀ v, v ≠ w → seesKeyStd (duringAll cs xs p) x v = seesKeyStd (duringAll cs xs []) x v)
    (R : List (List F)) (hR : corrDuring cs xs es = some (.ok R)) (i j : Nat) (hi : i < xs.length) (hj : j < xs.length) :
    ∃ c vi vj, (∃ p M, p <+: es ∧ sees (duringAll cs xs p) (.covarianceMatrix xs) = .matrix M ∧ entry M i j = some c) ∧
      (∃ p M, p <+: es ∧ sees (duringAll cs xs p) (.covarianceMatrix xs) = .matrix M ∧ entry M i i = some vi) ∧
      (∃ p M, p <+: es ∧ sees (duringAll cs xs p) (.covarianceMatrix xs) = .matrix M ∧ entry M j j = some vj) ∧
      ∀ r, entry R i j = some r → Rounded.Fin r → Rounded.Fin vi → 0 < Rounded.val vi → Rounded.Fin vj → 0 < Rounded.val vj →
        |Rounded.val r - Rounded.val c / (√(Rounded.val vi) * √(Rounded.val vj))| ≤
          corrBound (Rounded.u F) (Rounded.η F) (Rounded.val c / (√(Rounded.val vi) * √(Rounded.val vj)))
            (√(Rounded.val vi)) := by
  obtain ⟨M, hM, -⟩ := corrDuring_ok hR
  obtain ⟨p, M1, c, p1, p2, p3, p4⟩ := C90_element_partial cs xs h es w hc M hM i j hi hj
  obtain ⟨q, M2, vi, q1, q2, q3, q4⟩ := C90_element_partial cs xs h es w hc M hM i i hi hi
  obtain ⟨s, M3, vj, s1, s2, s3, s4⟩ := C90_element_partial cs xs h es w hc M hM j j hj hj
  exact ⟨c, vi, vj, ⟨p, M1, p1, p2, p4⟩, ⟨q, M2, q1, q2, q4⟩, ⟨s, M3, s1, s2, s4⟩,
    fun r hr fr fi pi fj pj => C92_correlation hu cs xs h es M R hM hR i j c vi vj r p3 q3 s3 fi pi fj pj hr fr⟩

end rounded

/-! ### A correlation of 2 -/

/-- The correlation matrix that is read. -/
def corrOf : Option (PyRes (List (List B64))) → Option (List (List B64))
  | some (.ok R) => some R
  | _ => none

theorem corrOf_eq {o : Option (PyRes (List (List B64)))} {R : List (List B64)} (h : corrOf o = some R) : o = some (.ok R) := by
  unfold corrOf at h
  split at h
  · cases h; rfl
  · cases h

/-- **C92**, negation of the full statement: the two numbers always have the correlation 1, but another thread changes the standard
deviation of their variable during the call, and the correlation that the thread gets is 2. -/
theorem C92_fails :
    corrDuring exEqual [.ref 1, .ref 2] exTwice =
        some (.ok [[.fin one64, .fin (2 * one64)], [.fin (2 * one64), .fin one64]]) ∧
      ∀ p, p <+: exTwice → seesCorrelation (duringAll exEqual [.ref 1, .ref 2] p) [.ref 1, .ref 2] = .ok (allEqual 1) := by
  refine ⟨corrOf_eq (by decide +kernel), fun p hp => ?_⟩
  obtain ⟨s, hs, e⟩ := C90_fails.2 p hp
  unfold seesCorrelation
  rw [e]
  have h : corrOf (some (correlationMatrix (allEqual 1))) = some (allEqual 1) ∧
      corrOf (some (correlationMatrix (allEqual 4))) = some (allEqual 1) := by decide +kernel
  simp only [List.mem_cons, List.not_mem_nil, or_false] at hs
  rcases hs with rfl | rfl
  · simpa using corrOf_eq h.1
  · simpa using corrOf_eq h.2

/-! ### Concrete cases -/

theorem exEqual_derivatives : ∀ x ∈ ([.ref 1, .ref 2] : List (Arg B64)), ∃ D, sees exEqual (.derivatives x) = .dict D := by
  intro x hx
  simp only [List.mem_cons, List.not_mem_nil, or_false] at hx
  rcases hx with rfl | rfl <;> exact dictOf_eq (by decide +kernel)

/-- The hypotheses of `C92_correlation`, `C92_diagonal` and `C92_symmetric` are met by the example of `C92_fails`: the matrix has a
correlation of 2, but its diagonal is 1 and it is symmetric. -/
example : |Rounded.val (B64.fin one64) - 1| ≤ corrBound (Rounded.u B64) (Rounded.η B64) 1 (√(Rounded.val (B64.fin (4 * one64)))) :=
  C92_diagonal (by change (2 : ℝ)⁻¹ ^ 53 < 1; norm_num) exEqual [.ref 1, .ref 2] exEqual_derivatives exTwice _ _ C90_fails.1
    C92_fails.1 1 (.fin (4 * one64)) (.fin one64) rfl trivial (B64.val_pos (by decide +kernel)) rfl trivial

/-- A change of some other variable during the call: `C92_unchanged`. -/
example : corrDuring (exEqual ++ [.ufloat (.fin 0) (.fin one64) none]) [.ref 1, .ref 2]
    [none, none, some (.setStd (.ref 3) (.fin (2 * one64))), none, none, none, none] = some (.ok (allEqual 1)) :=
  corrOf_eq (by decide +kernel)

/-- An exception: a standard deviation whose square overflows (`C92_shape`). -/
example : (match corrDuring exEqual [.ref 1, .ref 2] [some (.setStd (.ref 0) (.fin (2 ^ 1000 * one64))), none] with
    | some (.error e) => some e
    | _ => none) = some .overflowError := by decide +kernel

end Unc
