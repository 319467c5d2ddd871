import Verif.Lemmas.ConcurrentCov
import Verif.Props.C89_Concurrent

/-
C90: a thread calculates a covariance matrix while other threads change the standard deviations of variables.
-/

namespace Unc

set_option autoImplicit false

section any
variable {F : Type} [PyMath F] [Halts F]

/-- **C90**. `covariance_matrix(xs)` returns, whatever the other threads do, once it did some number `N` of operations. -/
theorem C90_returns (cs : List (Cmd F)) (xs : List (Arg F)) (h : ∀ x ∈ xs, ∃ D, sees cs (.derivatives x) = .dict D) :
    ∃ N, ∀ es : List (Event F), N ≤ es.countP Option.isNone → covDuring cs xs es ≠ none := by
  obtain ⟨us, ds, -, hr, -⟩ := cov_state h
  refine ⟨(CPc.start ds).left, fun es hes => ?_⟩
  obtain ⟨r, e⟩ := cov_run_result es (after (cs ++ xs.map .derivatives)) (CPc.start ds) hes
  simp only [covDuring, hr, e, Option.map_some]
  simp

/-- What is known about the matrix. -/
theorem cov_seen {cs : List (Cmd F)} {xs : List (Arg F)} (h : ∀ x ∈ xs, ∃ D, sees cs (.derivatives x) = .dict D)
    {es : List (Event F)} {o : Out F} (hes : covDuring cs xs es = some o) {us : List (UF F)} {ds : List (Derivs F)}
    (hr : ∀ es, (after cs).covDuring xs es = (CPc.run (after (cs ++ xs.map .derivatives)) (CPc.start ds) es).result)
    (hp : ∀ p, List.Forall₂ (fun (x : Arg F) u => x.evalUnc (after (duringAll cs xs p)).env = some u) xs us ∧
        List.Forall₂ (fun (u : UF F) d => (after (duringAll cs xs p)).w.nodes[u.lin]? = some (.dict d)) us ds ∧
        varsAt (after (cs ++ xs.map .derivatives)) p = (after (duringAll cs xs p)).w.vars ∧
        ∀ d ∈ ds, ∀ v ∈ d.map Prod.fst, v < (after (duringAll cs xs p)).w.vars.length) :
    (∃ rows M, RowsSeen (At (after (cs ++ xs.map .derivatives)) es) [] ds rows ∧ symmetrize 0 rows = .ok M ∧ o = .matrix M) ∨
      ∃ e d v c p, o = .err e ∧ d ∈ ds ∧ v ∈ d.map Prod.fst ∧ p <+: es ∧ (after (duringAll cs xs p)).w.vars[v]? = some c ∧
        PyFloat.sq c.std = .error e := by
  simp only [covDuring, hr] at hes
  cases hc : (CPc.run (after (cs ++ xs.map .derivatives)) (CPc.start ds) es).result with
  | none => rw [hc] at hes; cases hes
  | some r =>
    rw [hc] at hes
    simp only [Option.map_some, Option.some.injEq] at hes
    rcases cov_start_seen (K := fun v => ∃ d ∈ ds, v ∈ d.map Prod.fst) (fun v ⟨d, hd, hv⟩ p _ => by
        rw [(hp p).2.2.1]; exact (hp p).2.2.2 d hd v hv) (fun d hd v hv => ⟨d, hd, hv⟩) hc with ⟨rows, h1, rfl⟩ | h'
    · obtain ⟨M, hM⟩ := h1.symmetrize
      rw [hM] at hes
      exact Or.inl ⟨rows, M, h1, hM, hes.symm⟩
    · obtain ⟨e, v, c, rfl, ⟨d, hd, hv⟩, ⟨p, hpe, hpc⟩, hs⟩ := h'
      rw [(hp p).2.2.1] at hpc
      exact Or.inr ⟨e, d, v, c, p, hes.symm, hd, hv, hpe, hpc, hs⟩

/-- **C90**. Whatever the other threads do, the result is a square symmetric matrix with as many lines as there are numbers — unless the
square of a standard deviation that some variable had during the call fails, in which case the call has the exception of this square. -/
theorem C90_symmetric (cs : List (Cmd F)) (xs : List (Arg F)) (h : ∀ x ∈ xs, ∃ D, sees cs (.derivatives x) = .dict D)
    (es : List (Event F)) (o : Out F) (hes : covDuring cs xs es = some o) :
    (∃ M, o = .matrix M ∧ M.length = xs.length ∧ (∀ row ∈ M, row.length = xs.length) ∧ ∀ i j, entry M i j = entry M j i) ∨
      ∃ e, o = .err e ∧ ∃ x ∈ xs, ∃ v p s, p <+: es ∧ seesKeyStd (duringAll cs xs p) x v = .val (.flt s) ∧ PyFloat.sq s = .error e := by
  obtain ⟨us, ds, hlen, hr, hp⟩ := cov_state h
  rcases cov_seen h hes hr hp with ⟨rows, M, h1, h2, rfl⟩ | ⟨e, d, v, c, p, rfl, hd, hv, hpe, hpc, hs⟩
  · obtain ⟨b1, b2⟩ := h1.shape
    obtain ⟨c1, c2, c3⟩ := symmetrize_entry h2 (fun k row hk => by simpa using b2 k row hk)
    rw [b1, ← hlen] at c1 c2
    rw [b1, ← hlen] at c3
    refine Or.inl ⟨M, rfl, c1, c2, fun i j => ?_⟩
    have out : ∀ i j, ¬ (i < xs.length ∧ j < xs.length) → entry M i j = none := by
      intro i j hij
      simp only [entry]
      cases hi : M[i]? with
      | none => rfl
      | some row =>
        have h3 := (List.getElem?_eq_some_iff.mp hi).1
        have h4 := c2 row (List.mem_of_getElem? hi)
        simp only [Option.bind_some]
        exact List.getElem?_eq_none (by omega)
    by_cases hij : i < xs.length ∧ j < xs.length
    · rcases Nat.le_total i j with h3 | h3
      · rw [(c3 i j hij.1 hij.2).1 h3, (c3 j i hij.2 hij.1).2 h3]
      · rw [(c3 i j hij.1 hij.2).2 h3, (c3 j i hij.2 hij.1).1 h3]
    · rw [out i j hij, out j i (by tauto)]
  · obtain ⟨x, hx, e⟩ := cov_arg [] (fun p => ⟨(hp p).1, (hp p).2.1⟩) hd hv
    exact Or.inr ⟨_, rfl, x, hx, v, p, c.std, hpe, e p c hpc, hs⟩

/-- **C90**. If no standard deviation of the variables changes during the call, then the matrix is the one of a thread that is not
interrupted, whatever else the other threads do. -/
theorem C90_unchanged (cs : List (Cmd F)) (xs : List (Arg F)) (h : ∀ x ∈ xs, ∃ D, sees cs (.derivatives x) = .dict D)
    (es : List (Event F))
    (hc : ∀ p, p <+: es → ∀ x ∈ xs, ∀ v, seesKeyStd (duringAll cs xs p) x v = seesKeyStd (duringAll cs xs []) x v)
    (o : Out F) (hes : covDuring cs xs es = some o) : o = sees (duringAll cs xs []) (.covarianceMatrix xs) := by
  obtain ⟨us, ds, hlen, hr, hp⟩ := cov_state h
  rw [cov_sees_same (hp []).1 (hp []).2.1]
  simp only [covDuring, hr] at hes
  cases hc' : (CPc.run (after (cs ++ xs.map .derivatives)) (CPc.start ds) es).result with
  | none => rw [hc'] at hes; cases hes
  | some r =>
    rw [hc'] at hes
    simp only [Option.map_some, Option.some.injEq] at hes
    have key := cov_start_same (K := fun v => ∃ d ∈ ds, v ∈ d.map Prod.fst) (V := (after (duringAll cs xs [])).w.vars) (by
      rintro v ⟨d, hd, hv⟩ p hpe
      obtain ⟨x, hx, e⟩ := cov_arg [] (fun p => ⟨(hp p).1, (hp p).2.1⟩) hd hv
      rw [(hp p).2.2.1]
      have l1 := List.getElem?_eq_getElem ((hp p).2.2.2 d hd v hv)
      have l0 := List.getElem?_eq_getElem ((hp []).2.2.2 d hd v hv)
      have e1 := hc p hpe x hx v
      rw [e p _ l1, e [] _ l0] at e1
      rw [l1, l0]
      simpa using e1) (fun d hd v hv => ⟨d, hd, hv⟩) hc'
    rw [← hes, key]
    cases covRowsP (after (duringAll cs xs [])).w.vars [] ds with
    | error e => rfl
    | ok rows =>
      simp only
      cases symmetrize 0 rows <;> rfl

end any

section rounded
variable {F : Type} [PyMath F] [Halts F] [Rounded F]

/-- **C90**, partial: if at most one variable `w` changes during the call, then each element of the matrix is the one that the matrix has at
some moment of the call. (Full claim: the whole matrix is the one of some moment, whatever the number of variables that change. It is false,
even with a single variable that changes: `C90_fails`.) -/
theorem C90_element_partial (cs : List (Cmd F)) (xs : List (Arg F)) (h : ∀ x ∈ xs, ∃ D, sees cs (.derivatives x) = .dict D)
    (es : List (Event F)) (w : VarId)
    (hc : ∀ p, p <+: es → ∀ x ∈ xs, ∀ v, v ≠ w → seesKeyStd (duringAll cs xs p) x v = seesKeyStd (duringAll cs xs []) x v)
    (M : List (List F)) (hes : covDuring cs xs es = some (.matrix M)) (i j : Nat) (hi : i < xs.length) (hj : j < xs.length) :
    ∃ p M' y, p <+: es ∧ sees (duringAll cs xs p) (.covarianceMatrix xs) = .matrix M' ∧ entry M i j = some y ∧ entry M' i j = some y := by
  obtain ⟨us, ds, hlen, hr, hp⟩ := cov_state h
  rcases cov_seen h hes hr hp with ⟨rows, M, h1, h2, hM⟩ | ⟨e, d, v, c, p, ho, -⟩
  swap
  · cases ho
  simp only [Out.matrix.injEq] at hM
  subst hM
  have hn : ∀ d ∈ ds, KeysNodup d := by
    intro d hd
    obtain ⟨k, hk0⟩ := List.getElem?_of_mem hd
    obtain ⟨hk, rfl⟩ := List.getElem?_eq_some_iff.mp hk0
    have l1 : k < us.length := (hp []).2.1.length_eq ▸ hk
    have e2 := List.Forall₂.get (hp []).2.1 l1 hk
    obtain ⟨g, s, hg, -⟩ := RRel.afterAll (duringAll cs xs [])
    exact (hg.inv.den.cell _ _ e2).1
  have hlt : ∀ d ∈ ds, ∀ v ∈ d.map Prod.fst, ∀ p, p <+: es → v < (varsAt (after (cs ++ xs.map .derivatives)) p).length :=
    fun d hd v hv p _ => by rw [(hp p).2.2.1]; exact (hp p).2.2.2 d hd v hv
  have hsame : ∀ d ∈ ds, ∀ v ∈ d.map Prod.fst, v ≠ w → ∀ c c', At (after (cs ++ xs.map .derivatives)) es v c →
      At (after (cs ++ xs.map .derivatives)) es v c' → c.std = c'.std := by
    rintro d hd v hv hvw c c' ⟨p, hpe, hpc⟩ ⟨q, hqe, hqc⟩
    obtain ⟨x, hx, e⟩ := cov_arg [] (fun p => ⟨(hp p).1, (hp p).2.1⟩) hd hv
    rw [(hp p).2.2.1] at hpc
    rw [(hp q).2.2.1] at hqc
    have e1 := (hc p hpe x hx v hvw).trans (hc q hqe x hx v hvw).symm
    rw [e p _ hpc, e q _ hqc] at e1
    simpa using e1
  obtain ⟨b1, b2⟩ := h1.shape
  -- the element, in the lines
  obtain ⟨a, b, hab, ha, hent⟩ : ∃ a b, b ≤ a ∧ a < ds.length ∧ ∀ {rows M : List (List F)}, symmetrize 0 rows = .ok M → rows.length = ds.length →
      (∀ k row, rows[k]? = some row → row.length = k + 1) → entry M i j = entry rows a b := by
    rcases Nat.le_total i j with hij | hij
    · exact ⟨j, i, hij, by omega, fun e1 e2 e3 => ((symmetrize_entry e1 e3).2.2 i j (by omega) (by omega)).1 hij⟩
    · exact ⟨i, j, hij, by omega, fun e1 e2 e3 => ((symmetrize_entry e1 e3).2.2 i j (by omega) (by omega)).2 hij⟩
  have hb : b < ds.length := by omega
  have ga := List.getElem?_eq_getElem ha
  have gb := List.getElem?_eq_getElem hb
  have ma : ds[a] ∈ ds := List.getElem_mem ha
  obtain ⟨y, hy, hseen⟩ := h1.elem ds a b _ _ ga (by rw [List.nil_append]; exact gb) (by simpa using hab)
  obtain ⟨k1, k2⟩ := elem_pick w ds[a] (hn _ ma) (hsame _ ma) (hlt _ ma) hseen
  -- all the variables have been read
  have hread : ∀ d ∈ ds, ∀ v ∈ d.map Prod.fst, ∃ c s2, At (after (cs ++ xs.map .derivatives)) es v c ∧ PyFloat.sq c.std = .ok s2 := by
    intro d hd
    obtain ⟨k, hk⟩ := List.getElem?_of_mem hd
    obtain ⟨z, -, hz⟩ := h1.elem ds k k d d hk (by simpa using hk) (by simp)
    exact diag_read d (fun v hv => hv) hz
  obtain ⟨p, hpe, hw, hx⟩ : ∃ p, p <+: es ∧ (∀ d ∈ ds, w ∈ d.map Prod.fst → ∃ c s2, (varsAt (after (cs ++ xs.map .derivatives)) p)[w]? = some c ∧
      PyFloat.sq c.std = .ok s2) ∧ ElemSeen (fun v c => (varsAt (after (cs ++ xs.map .derivatives)) p)[v]? = some c) ds[b] ds[a] 0 y := by
    by_cases hcom : w ∈ ds[a].map Prod.fst ∧ ds[b].lookup w ≠ none
    · obtain ⟨p, c, s2, e1, e2, e3, e4⟩ := k2 hcom.1 hcom.2
      exact ⟨p, e1, fun _ _ _ => ⟨c, s2, e2, e3⟩, e4⟩
    · have hcom' : w ∉ ds[a].map Prod.fst ∨ ds[b].lookup w = none := by
        by_cases h3 : w ∈ ds[a].map Prod.fst
        · exact Or.inr (by by_contra h4; exact hcom ⟨h3, h4⟩)
        · exact Or.inl h3
      by_cases hex : ∃ d ∈ ds, w ∈ d.map Prod.fst
      · obtain ⟨d, hd, hwd⟩ := hex
        obtain ⟨c, s2, ⟨p, e1, e2⟩, e3⟩ := hread d hd w hwd
        exact ⟨p, e1, fun _ _ _ => ⟨c, s2, e2, e3⟩, k1 hcom' p e1⟩
      · exact ⟨[], List.nil_prefix, fun d hd hwd => absurd ⟨d, hd, hwd⟩ hex, k1 hcom' [] List.nil_prefix⟩
  have hall : ∀ d ∈ ds, ∀ v ∈ d.map Prod.fst, ∃ c s2, (varsAt (after (cs ++ xs.map .derivatives)) p)[v]? = some c ∧
      PyFloat.sq c.std = .ok s2 := by
    intro d hd v hv
    by_cases hvw : v = w
    · subst hvw; exact hw d hd hv
    · obtain ⟨c, s2, e1, e2⟩ := hread d hd v hv
      have e3 := List.getElem?_eq_getElem (hlt d hd v hv p hpe)
      refine ⟨_, s2, e3, ?_⟩
      rw [← hsame d hd v hv hvw c _ e1 ⟨p, hpe, e3⟩]
      exact e2
  obtain ⟨rows', hrows'⟩ := rows_total ds [] hall
  obtain ⟨M', hM'⟩ := hrows'.symmetrize
  obtain ⟨c1, c2⟩ := hrows'.shape
  obtain ⟨y', hy', hseen'⟩ := hrows'.elem ds a b _ _ ga (by rw [List.nil_append]; exact gb) (by simpa using hab)
  have hyy : y' = y := by
    have e1 := covElem_of_seen _ hseen'
    rw [covElem_of_seen _ hx] at e1
    simpa using e1.symm
  rw [(hp p).2.2.1] at hrows'
  refine ⟨p, M', y, hpe, cov_sees (hp p).1 (hp p).2.1 hrows' hM', ?_, ?_⟩
  · rw [hent h2 b1 (fun k row hk => by simpa using b2 k row hk)]; exact hy
  · rw [hent hM' c1 (fun k row hk => by simpa using c2 k row hk), hy', hyy]

end rounded

/-! ### Doubles -/

/-- `v = ufloat(0, 1)`, `x = v + 0`, `y = v*1`: two equal numbers. -/
def exEqual : List (Cmd B64) :=
  [.ufloat (.fin 0) (.fin one64) none, .binop .add (.ref 0) (.const (.flt (.fin 0))),
   .binop .mul (.ref 0) (.const (.flt (.fin one64)))]

/-- A thread calculates `covariance_matrix([x, y])`; after the first element, another thread does `v.std_dev = 2`. -/
def exTwice : List (Event B64) :=
  [none, none, some (.setStd (.ref 0) (.fin (2 * one64))), none, none, none, none]

/-- The matrix that is read. -/
def matrixOf : Option (Out B64) → Option (List (List B64))
  | some (.matrix M) => some M
  | _ => none

theorem matrixOf_eq {o : Option (Out B64)} {M : List (List B64)} (h : matrixOf o = some M) : o = some (.matrix M) := by
  unfold matrixOf at h
  split at h
  · cases h; rfl
  · cases h

/-- The covariance matrix of two numbers with the same variance `s` and covariance `s`. -/
def allEqual (s : ℤ) : List (List B64) := [[.fin (s * one64), .fin (s * one64)], [.fin (s * one64), .fin (s * one64)]]

/-- **C90**, negation of the full statement: even if a single variable changes, the matrix can be one that never existed. Here, its elements
are all 1 and then all 4, but the matrix which is read is `[[1, 4], [4, 4]]`: this is not a covariance matrix, since the correlation would be
2. -/
theorem C90_fails :
    covDuring exEqual [.ref 1, .ref 2] exTwice =
        some (.matrix [[.fin one64, .fin (4 * one64)], [.fin (4 * one64), .fin (4 * one64)]]) ∧
      ∀ p, p <+: exTwice → ∃ s ∈ [1, 4], sees (duringAll exEqual [.ref 1, .ref 2] p) (.covarianceMatrix [.ref 1, .ref 2]) = .matrix (allEqual s) := by
  refine ⟨matrixOf_eq (by decide +kernel), fun p hp => ?_⟩
  have h : (exTwice.inits.map fun p => matrixOf (some (sees (duringAll exEqual [.ref 1, .ref 2] p) (.covarianceMatrix [.ref 1, .ref 2])))) =
      ([1, 1, 1, 4, 4, 4, 4, 4].map allEqual).map some := by decide +kernel
  have h1 : matrixOf (some (sees (duringAll exEqual [.ref 1, .ref 2] p) (.covarianceMatrix [.ref 1, .ref 2]))) ∈
      ([1, 1, 1, 4, 4, 4, 4, 4].map allEqual).map some := by
    rw [← h]
    exact List.mem_map_of_mem (f := fun p => matrixOf (some (sees (duringAll exEqual [.ref 1, .ref 2] p) (.covarianceMatrix [.ref 1, .ref 2]))))
      ((List.mem_inits _ _).mpr hp)
  obtain ⟨M, hM, e⟩ := List.mem_map.mp h1
  obtain ⟨s, hs, rfl⟩ := List.mem_map.mp hM
  refine ⟨s, ?_, by simpa using matrixOf_eq e.symm⟩
  simp only [List.mem_cons, List.not_mem_nil, or_false] at hs
  rcases hs with rfl | rfl | rfl | rfl | rfl | rfl | rfl | rfl <;> simp

/-! ### Concrete cases -/

/-- A dictionary is read. -/
def isDict : Out B64 → Bool
  | .dict _ => true
  | _ => false

theorem dictOf_eq {o : Out B64} (h : isDict o = true) : ∃ D, o = .dict D := by
  unfold isDict at h
  split at h
  · exact ⟨_, rfl⟩
  · cases h

/-- The numbers of the example meet the hypothesis of the theorems above... -/
example : ∀ x ∈ ([.ref 1, .ref 2] : List (Arg B64)), ∃ D, sees exEqual (.derivatives x) = .dict D := by
  intro x hx
  simp only [List.mem_cons, List.not_mem_nil, or_false] at hx
  rcases hx with rfl | rfl <;> exact dictOf_eq (by decide +kernel)

/-- ... and they have a single variable, so that `C90_element_partial` applies with `w = 0` to the example of `C90_fails`. -/
example : (match sees exEqual (.derivatives (.ref 1)), sees exEqual (.derivatives (.ref 2)) with
    | .dict D, .dict E => [D 0, D 1, E 0, E 1]
    | _, _ => []) = [some (.fin one64), none, some (.fin one64), none] := by decide +kernel

/-- A change of some other variable during the call: `C90_unchanged`. -/
example : covDuring (exEqual ++ [.ufloat (.fin 0) (.fin one64) none]) [.ref 1, .ref 2]
    [none, none, some (.setStd (.ref 3) (.fin (2 * one64))), none, none, none, none] = some (.matrix (allEqual 1)) :=
  matrixOf_eq (by decide +kernel)

/-- An exception: a standard deviation whose square overflows. -/
example : (match covDuring exEqual [.ref 1, .ref 2] [some (.setStd (.ref 0) (.fin (2 ^ 1000 * one64))), none] with
    | some (.err e) => some e
    | _ => none) = some .overflowError := by decide +kernel

end Unc
