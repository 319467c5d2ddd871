import Verif.Props.Examples
import Verif.Lemmas.CmpReal
import Verif.Py.IZ

/-
C15, C16, C17: comparisons and truth value.
-/

namespace Unc

set_option autoImplicit false

open NR

/-- What is read of a comparison between two quantities with finite values. -/
theorem compare_quantities {cs : List (Cmd NR)} {x y : Arg NR} {a b : NR}
    {D D' : VarId → Option NR} {σ σ' : VarId → NR}
    (hx : Quantity cs x a D σ) (hy : Quantity cs y b D' σ') :
    ∃ vars : List (SVar NR), StdsAre vars D σ ∧ StdsAre vars D' σ' ∧ ∃ o o',
      ∀ op, sees cs (.compare op x y) = PyRes.out .bool (specCmp vars op ⟨a, D, o⟩ ⟨b, D', o'⟩) := by
  obtain ⟨s, hs⟩ := Reaches.exists cs
  obtain ⟨p, h1, rfl, rfl, h4⟩ := hs.quantity hx
  obtain ⟨q, k1, rfl, rfl, k4⟩ := hs.quantity hy
  exact ⟨s.vars, h4, k4, p.var, q.var, fun op =>
    hs.compare (seval_of_sevalUnc h1) (seval_of_sevalUnc k1) rfl rfl rfl op⟩

/-- **C15**: `x == y` if and only if the nominal values are equal and every variable which is not exact
has the same derivative in both (`coef` is 0 for the variables on which a quantity does not
depend). `x != y` is the opposite. -/
theorem C15_equality {cs : List (Cmd NR)} {x y : Arg NR} {a b : ℝ}
    {D D' : VarId → Option NR} {σ : VarId → ℝ}
    (hx : Quantity cs x (fin a) D (fun v => fin (σ v))) (hy : Quantity cs y (fin b) D' (fun v => fin (σ v)))
    (hn : ∀ v, D v ≠ some nan) (hn' : ∀ v, D' v ≠ some nan) :
    ∃ r, sees cs (.compare .eq x y) = .bool r ∧ sees cs (.compare .ne x y) = .bool (!r) ∧
      (r = true ↔ a = b ∧ ∀ v, σ v ≠ 0 → coef (D v) = coef (D' v)) := by
  obtain ⟨vars, s1, s2, o, o', hc⟩ := compare_quantities hx hy
  obtain ⟨r, h1, h2⟩ := specEq_fin (x := ⟨fin a, D, o⟩) (y := ⟨fin b, D', o'⟩) rfl rfl hn hn' s1 s2
  refine ⟨r, ?_, ?_, h2⟩
  · rw [hc]; simp only [specCmp, h1, PyRes.out]
  · rw [hc]; simp only [specCmp, h1, PyRes.out, Except.map]

/-- **C15**: comparison to a plain number. -/
theorem C15_equality_number {cs : List (Cmd NR)} {x : Arg NR} {a b : ℝ}
    {D : VarId → Option NR} {σ : VarId → ℝ}
    (hx : Quantity cs x (fin a) D (fun v => fin (σ v))) (hn : ∀ v, D v ≠ some nan) :
    ∃ r, sees cs (.compare .eq x (.const (.flt (fin b)))) = .bool r ∧
      sees cs (.compare .eq (.const (.flt (fin b))) x) = .bool r ∧
      (r = true ↔ a = b ∧ ∀ v, σ v ≠ 0 → coef (D v) = 0) := by
  obtain ⟨s, hs⟩ := Reaches.exists cs
  obtain ⟨p, h1, h2, rfl, h4⟩ := hs.quantity hx
  obtain ⟨r, e1, e2⟩ := specEq_fin (x := p) (y := specExact (fin b)) h2 rfl hn
    (fun v => by simp [specExact, Lin.zero]) h4 (fun v hv => absurd rfl hv)
  refine ⟨r, ?_, ?_, ?_⟩
  · rw [hs.compare (seval_of_sevalUnc h1) rfl rfl rfl rfl]
    simp only [specCmp, e1, PyRes.out]
  · rw [hs.compare rfl (seval_of_sevalUnc h1) rfl rfl rfl]
    simp only [specCmp]
    rw [specEq_comm, e1]; rfl
  · rw [e2]; simp [specExact, Lin.zero]

/-- **C15**: `x == y` if and only if `x - y` has nominal value 0 and standard deviation 0, for all
numbers with uncertainties (NaN included). -/
theorem C15_equality_difference {cs : List (Cmd NR)} {x y : Arg NR} {a b : NR}
    {D D' : VarId → Option NR} {σ σ' : VarId → NR}
    (hx : Quantity cs x a D σ) (hy : Quantity cs y b D' σ') :
    sees cs (.compare .eq x y) = .bool true ↔
      sees (cs ++ [.binop .sub x y]) (.nominal (next cs)) = .val (.flt (fin 0)) ∧
      sees (cs ++ [.binop .sub x y]) (.stdDev (next cs)) = .val (.flt (fin 0)) := by
  obtain ⟨s, hs⟩ := Reaches.exists cs
  obtain ⟨p, h1, rfl, rfl, h4⟩ := hs.quantity hx
  obtain ⟨q, k1, rfl, rfl, k4⟩ := hs.quantity hy
  have e := hs.compare (seval_of_sevalUnc h1) (seval_of_sevalUnc k1) rfl rfl rfl .eq
  have hsub : specBinop .sub (.unc p) (.unc q) =
      .ok (.unc ⟨p.nom - q.nom, diffGrad p.grad q.grad, none⟩) :=
    specBinop_unc_unc rfl rfl rfl
  obtain ⟨-, hr⟩ := hs.binop (seval_of_sevalUnc h1) (seval_of_sevalUnc k1) hsub rfl
  have hev := hs.next_eval (vars := s.vars) (fns := s.fns) (l := [])
    (q := (⟨p.nom - q.nom, diffGrad p.grad q.grad, none⟩ : SQ NR))
  have hnom := (hr.quantity_exists hev).nominal
  have hstd := (hr.stdDev hev).1
  rw [e, hnom, hstd]
  simp only [specCmp, specEq_eq, PyRes.out, Out.bool.injEq, Bool.and_eq_true, Out.val.injEq,
    PyVal.flt.injEq, PyFloat.truthy, Bool.not_not]
  have key : ∀ z : NR, PyFloat.eqb z 0 = true ↔ z = fin 0 := by
    intro z; cases z <;> simp [PyFloat.eqb]
  rw [key, key]

/-- **C15**: `==` is reflexive, for quantities with finite values. -/
theorem C15_reflexive {cs : List (Cmd NR)} {x : Arg NR} {a : ℝ} {D : VarId → Option NR}
    {σ : VarId → ℝ} (hx : Quantity cs x (fin a) D (fun v => fin (σ v))) (hn : ∀ v, D v ≠ some nan) :
    sees cs (.compare .eq x x) = .bool true := by
  obtain ⟨r, h1, -, h3⟩ := C15_equality hx hx hn hn
  rw [h1, h3.mpr ⟨rfl, fun _ _ => rfl⟩]

/-- **C15**: `==` is symmetric. -/
theorem C15_symmetric {cs : List (Cmd NR)} {x y : Arg NR} {a b : NR}
    {D D' : VarId → Option NR} {σ σ' : VarId → NR}
    (hx : Quantity cs x a D σ) (hy : Quantity cs y b D' σ') :
    sees cs (.compare .eq x y) = sees cs (.compare .eq y x) := by
  obtain ⟨s, hs⟩ := Reaches.exists cs
  obtain ⟨p, h1, -⟩ := hs.quantity hx
  obtain ⟨q, k1, -⟩ := hs.quantity hy
  rw [hs.compare (seval_of_sevalUnc h1) (seval_of_sevalUnc k1) rfl rfl rfl .eq,
    hs.compare (seval_of_sevalUnc k1) (seval_of_sevalUnc h1) rfl rfl rfl .eq]
  simp only [specCmp]
  rw [specEq_comm]

/-- **C15**: `==` is transitive, for quantities with finite values. -/
theorem C15_transitive {cs : List (Cmd NR)} {x y z : Arg NR} {a b c : ℝ}
    {D D' D'' : VarId → Option NR} {σ : VarId → ℝ}
    (hx : Quantity cs x (fin a) D (fun v => fin (σ v)))
    (hy : Quantity cs y (fin b) D' (fun v => fin (σ v)))
    (hz : Quantity cs z (fin c) D'' (fun v => fin (σ v)))
    (hn : ∀ v, D v ≠ some nan) (hn' : ∀ v, D' v ≠ some nan) (hn'' : ∀ v, D'' v ≠ some nan)
    (hxy : sees cs (.compare .eq x y) = .bool true) (hyz : sees cs (.compare .eq y z) = .bool true) :
    sees cs (.compare .eq x z) = .bool true := by
  obtain ⟨r1, a1, -, a3⟩ := C15_equality hx hy hn hn'
  obtain ⟨r2, b1, -, b3⟩ := C15_equality hy hz hn' hn''
  obtain ⟨r3, c1, -, c3⟩ := C15_equality hx hz hn hn''
  rw [hxy] at a1; rw [hyz] at b1
  simp only [Out.bool.injEq] at a1 b1
  obtain ⟨e1, e2⟩ := a3.mp a1.symm
  obtain ⟨f1, f2⟩ := b3.mp b1.symm
  rw [c1, c3.mpr ⟨e1.trans f1, fun v hv => (e2 v hv).trans (f2 v hv)⟩]

/-- **C15**: two different variables are not equal if one of them is not exact. -/
theorem C15_different_variables {cs : List (Cmd NR)} {x y : Arg NR} {a b : ℝ} {v w : VarId}
    {σ : VarId → ℝ} (hx : Quantity cs x (fin a) (Lin.single v) (fun v => fin (σ v)))
    (hy : Quantity cs y (fin b) (Lin.single w) (fun v => fin (σ v))) (hvw : v ≠ w)
    (hσ : σ v ≠ 0 ∨ σ w ≠ 0) : sees cs (.compare .eq x y) = .bool false := by
  have hn : ∀ u t : VarId, (Lin.single u : Lin NR) t ≠ some nan := by
    intro u t; simp [Lin.single]
  obtain ⟨r, h1, -, h3⟩ := C15_equality hx hy (hn v) (hn w)
  rw [h1]
  congr 1
  by_contra hr
  obtain ⟨-, e⟩ := h3.mp (by simpa using hr)
  rcases hσ with h | h
  · have := e v h; simp [Lin.single, hvw] at this
  · have := e w h; simp [Lin.single, hvw.symm] at this

/-- Outside of finite values: a quantity with an infinite standard deviation is not equal to
itself. (`IZ`: integers, NaN and infinities.) -/
theorem C15_infinite_std_dev_not_reflexive :
    sees ([.ufloat (.fin 1) (.inf false) none] : List (Cmd IZ)) (.compare .eq (.ref 0) (.ref 0)) =
      .bool false := rfl

/-- **C15**, **C16**: after any history and in any arithmetic, a number with uncertainty is different from all the objects
which are not numbers (strings, lists, None...): `==` is False and `!=` is True in both orders, and the order comparisons
raise TypeError. -/
theorem C15_other_types {F : Type} [PyMath F] (cs : List (Cmd F)) (x : Arg F) (k : Nat)
    (hx : sees cs (.derivatives x) ≠ .invalid) :
    sees cs (.compare .eq x (.const (.other k))) = .bool false ∧
    sees cs (.compare .eq (.const (.other k)) x) = .bool false ∧
    sees cs (.compare .ne x (.const (.other k))) = .bool true ∧
    sees cs (.compare .ne (.const (.other k)) x) = .bool true ∧
    ∀ op ∈ [CmpOp.gt, .ge, .lt, .le], sees cs (.compare op x (.const (.other k))) = .err .typeError ∧
      sees cs (.compare op (.const (.other k)) x) = .err .typeError := by
  obtain ⟨u, hu⟩ : ∃ u, x.eval (after cs).env = some (.unc u) := by
    unfold sees Machine.step at hx
    simp only [Machine.read, Arg.evalUnc] at hx
    split at hx
    · exact absurd rfl hx
    · rename_i u h
      cases h' : x.eval (after cs).env with
      | none => simp [h'] at h
      | some v =>
        cases v with
        | unc u => exact ⟨u, rfl⟩
        | plain y => simp [h'] at h
  have hk : (Arg.const (.other k) : Arg F).eval (after cs).env = some (.plain (.other k)) := rfl
  simp [sees, Machine.step, hu, hk, World.compare, World.cmpRun, World.cmp, World.toAffine, CmpOp.fallback, CmpOp.swap,
    Val.isUnc]

/-- `x*y != 'abc'` is True. -/
example : sees exCs (.compare .ne (.ref 2) (.const (.other 7))) = .bool true :=
  (C15_other_types exCs (.ref 2) 7 (by rw [ex_p.derivatives]; simp)).2.2.1

/-- x*y == x*y; x != y. -/
example : sees exCs (.compare .eq (.ref 2) (.ref 2)) = .bool true ∧
    sees exCs (.compare .eq (.ref 0) (.ref 1)) = .bool false :=
  ⟨C15_reflexive ex_p (by intro v; unfold exP; split <;> [simp; split <;> simp]),
   C15_different_variables ex_x ex_y (by simp) (by simp [exStd])⟩

/-! ### C16 -/

/-- **C16**: `<` and `>` compare nominal values; `<=` and `>=` are true if the strict comparison or the
equality is. -/
theorem C16_order {cs : List (Cmd NR)} {x y : Arg NR} {a b : ℝ}
    {D D' : VarId → Option NR} {σ σ' : VarId → NR}
    (hx : Quantity cs x (fin a) D σ) (hy : Quantity cs y (fin b) D' σ') :
    (∃ r, sees cs (.compare .lt x y) = .bool r ∧ (r = true ↔ a < b)) ∧
    (∃ r, sees cs (.compare .gt x y) = .bool r ∧ (r = true ↔ a > b)) ∧
    (sees cs (.compare .le x y) = .bool true ↔
      sees cs (.compare .lt x y) = .bool true ∨ sees cs (.compare .eq x y) = .bool true) ∧
    (sees cs (.compare .ge x y) = .bool true ↔
      sees cs (.compare .gt x y) = .bool true ∨ sees cs (.compare .eq x y) = .bool true) := by
  obtain ⟨vars, s1, s2, o, o', hc⟩ := compare_quantities hx hy
  simp only [hc, specCmp, specEq_eq]
  refine ⟨⟨_, rfl, ?_⟩, ⟨_, rfl, ?_⟩, ?_, ?_⟩
  · simp [PyFloat.ltb]
  · simp [PyFloat.ltb]
  · cases PyFloat.ltb (fin a) (fin b) <;> simp [PyRes.out]
  · cases PyFloat.ltb (fin b) (fin a) <;> simp [PyRes.out]

/-- **C16**: `<=` is reflexive, transitive, and antisymmetric with respect to `==`. -/
theorem C16_partial_order {cs : List (Cmd NR)} {x y z : Arg NR} {a b c : ℝ}
    {D D' D'' : VarId → Option NR} {σ : VarId → ℝ}
    (hx : Quantity cs x (fin a) D (fun v => fin (σ v)))
    (hy : Quantity cs y (fin b) D' (fun v => fin (σ v)))
    (hz : Quantity cs z (fin c) D'' (fun v => fin (σ v)))
    (hn : ∀ v, D v ≠ some nan) (hn' : ∀ v, D' v ≠ some nan) (hn'' : ∀ v, D'' v ≠ some nan) :
    sees cs (.compare .le x x) = .bool true ∧
    (sees cs (.compare .le x y) = .bool true → sees cs (.compare .le y z) = .bool true →
      sees cs (.compare .le x z) = .bool true) ∧
    (sees cs (.compare .le x y) = .bool true → sees cs (.compare .le y x) = .bool true →
      sees cs (.compare .eq x y) = .bool true) := by
  have lt_iff : ∀ {x y : Arg NR} {a b : ℝ} {D D' : VarId → Option NR} {σ σ' : VarId → NR},
      Quantity cs x (fin a) D σ → Quantity cs y (fin b) D' σ' →
      (sees cs (.compare .lt x y) = .bool true ↔ a < b) := by
    intro x y a b D D' σ σ' hx hy
    obtain ⟨⟨r, h1, h2⟩, -⟩ := C16_order hx hy
    rw [h1, ← h2]; simp
  have eq_nom : ∀ {x y : Arg NR} {a b : ℝ} {D D' : VarId → Option NR} {σ : VarId → ℝ},
      Quantity cs x (fin a) D (fun v => fin (σ v)) → Quantity cs y (fin b) D' (fun v => fin (σ v)) →
      (∀ v, D v ≠ some nan) → (∀ v, D' v ≠ some nan) →
      sees cs (.compare .eq x y) = .bool true → a = b := by
    intro x y a b D D' σ hx hy hn hn' h
    obtain ⟨r, h1, -, h3⟩ := C15_equality hx hy hn hn'
    rw [h] at h1
    simp only [Out.bool.injEq] at h1
    exact (h3.mp h1.symm).1
  refine ⟨?_, ?_, ?_⟩
  · rw [(C16_order hx hx).2.2.1]; exact Or.inr (C15_reflexive hx hn)
  · intro h1 h2
    rw [(C16_order hx hy).2.2.1, lt_iff hx hy] at h1
    rw [(C16_order hy hz).2.2.1, lt_iff hy hz] at h2
    rw [(C16_order hx hz).2.2.1, lt_iff hx hz]
    rcases h1 with h1 | h1 <;> rcases h2 with h2 | h2
    · exact Or.inl (h1.trans h2)
    · rw [eq_nom hy hz hn' hn'' h2] at h1; exact Or.inl h1
    · rw [← eq_nom hx hy hn hn' h1] at h2; exact Or.inl h2
    · exact Or.inr (C15_transitive hx hy hz hn hn' hn'' h1 h2)
  · intro h1 h2
    rw [(C16_order hx hy).2.2.1, lt_iff hx hy] at h1
    rw [(C16_order hy hx).2.2.1, lt_iff hy hx] at h2
    rcases h1 with h1 | h1
    · rcases h2 with h2 | h2
      · exact absurd h2 (lt_asymm h1)
      · have := eq_nom hy hx hn' hn h2
        rw [this] at h1
        exact absurd h1 (lt_irrefl _)
    · exact h1

/-- **C16**: the order is not total: two different variables with the same nominal value, one of which
is not exact, are neither `<`, nor `>`, nor `<=`, nor `>=`. -/
theorem C16_not_total {cs : List (Cmd NR)} {x y : Arg NR} {a : ℝ} {v w : VarId}
    {σ : VarId → ℝ} (hx : Quantity cs x (fin a) (Lin.single v) (fun v => fin (σ v)))
    (hy : Quantity cs y (fin a) (Lin.single w) (fun v => fin (σ v))) (hvw : v ≠ w)
    (hσ : σ v ≠ 0 ∨ σ w ≠ 0) (op : CmpOp) (hop : op ≠ .ne) :
    sees cs (.compare op x y) = .bool false := by
  have he := C15_different_variables hx hy hvw hσ
  obtain ⟨vars, s1, s2, o, o', hc⟩ := compare_quantities hx hy
  rw [hc] at he ⊢
  simp only [specCmp, specEq_eq, PyRes.out, Out.bool.injEq] at he ⊢
  cases op with
  | ne => exact absurd rfl hop
  | eq => simp only [he]
  | lt => simp [PyFloat.ltb]
  | gt => simp [PyFloat.ltb]
  | le => simp only [he]; simp [PyFloat.ltb]
  | ge => simp only [he]; simp [PyFloat.ltb]

/-- There are two such variables. -/
example : ∃ cs : List (Cmd NR), ∃ x y a v w, ∃ σ : VarId → ℝ,
    Quantity cs x (fin a) (Lin.single v) (fun v => fin (σ v)) ∧
    Quantity cs y (fin a) (Lin.single w) (fun v => fin (σ v)) ∧ v ≠ w ∧ σ v ≠ 0 := by
  have b1 : specBadStd (fin 1) = false := by simp [specBadStd, PyFloat.ltb]
  have h1 := ((Reaches.nil (F := NR)).ufloat (n := fin 3) none b1).2
  have h2 := (h1.ufloat (n := fin 3) none b1).2
  have e : (fun v : VarId => fin (if v < 2 then 1 else 0)) = fun v : VarId => (((
      [⟨fin 3, fin 1, none⟩, ⟨fin 3, fin 1, none⟩] : List (SVar NR))[v]?).map (·.std)).getD 0 := by
    funext v
    match v with
    | 0 => simp
    | 1 => simp
    | n + 2 => simp
  refine ⟨[Cmd.ufloat (fin 3) (fin 1) none, Cmd.ufloat (fin 3) (fin 1) none],
    .ref 0, .ref 1, 3, 0, 1, fun v => if v < 2 then 1 else 0, ?_, ?_, by simp, by simp⟩
  · rw [e]; exact h2.quantity_exists (x := .ref 0) (q := ⟨fin 3, Lin.single 0, some 0⟩) rfl
  · rw [e]; exact h2.quantity_exists (x := .ref 1) (q := ⟨fin 3, Lin.single 1, some 1⟩) rfl

/-! ### C17 -/

/-- **C17**: `bool(x)` is false if and only if the nominal value and the standard deviation are both 0,
for all numbers with uncertainties. -/
theorem C17_truth_value {cs : List (Cmd NR)} {x : Arg NR} {a : NR} {D : VarId → Option NR}
    {σ : VarId → NR} (hx : Quantity cs x a D σ) :
    ∃ r, sees cs (.toBool x) = .bool r ∧
      (r = false ↔ a = fin 0 ∧ sees cs (.stdDev x) = .val (.flt (fin 0))) := by
  obtain ⟨s, hs⟩ := Reaches.exists cs
  obtain ⟨p, h1, rfl, rfl, h4⟩ := hs.quantity hx
  have hg : diffGrad p.grad (Lin.zero) = p.grad := by
    funext v; rw [diffGrad_apply]; cases p.grad v <;> simp [Lin.zero, optAdd]
  have e : sees cs (.toBool x) = .bool (!(!PyFloat.truthy (p.nom - 0) &&
      !PyFloat.truthy (nrSqrt (specVariance s.vars p.grad)))) := by
    rw [(hs.read (c := .toBool x) rfl).1]
    simp only [SState.step, SState.read, h1, specCmp, specEq_eq, specExact, hg, Except.map, PyRes.out]
  refine ⟨_, e, ?_⟩
  rw [(hs.stdDev h1).1]
  have key : ∀ z : NR, PyFloat.truthy z = false ↔ z = fin 0 := by
    intro z; cases z <;> simp [PyFloat.truthy, PyFloat.eqb]
  have hz : p.nom - 0 = p.nom := by cases p.nom <;> simp
  simp only [Bool.not_eq_false', Bool.and_eq_true, Bool.not_eq_true', key, hz, Out.val.injEq,
    PyVal.flt.injEq]

/-- `r = z**0.5 = 0±0` is false; `x = 3±2` is true. -/
example : (∃ r, sees exCs (.toBool (.ref 0)) = .bool r ∧ r = true) := by
  obtain ⟨r, h1, h2⟩ := C17_truth_value ex_x
  refine ⟨r, h1, ?_⟩
  cases r
  · have := (h2.mp rfl).1; simp at this
  · rfl

end Unc
