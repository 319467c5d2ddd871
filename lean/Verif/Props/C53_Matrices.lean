import Mathlib.LinearAlgebra.Matrix.Notation
import Mathlib.Analysis.Matrix.Spectrum
import Mathlib.LinearAlgebra.Matrix.DotProduct
import Verif.Lemmas.Matrices
import Verif.Lemmas.MatDeriv
import Verif.Props.C05_StdDev

/-
C53, C54: inverse and pseudo-inverse of matrices of numbers with uncertainties.
-/

namespace Unc

set_option autoImplicit false

open NR Matrix Filter Topology

variable {m n : ℕ}

theorem invWithDerivatives_real {inv : List (List NR) → PyRes (List (List NR))} {N X : Matrix (Fin n) (Fin n) ℝ}
    (h : inv (rows N) = .ok (rows X)) :
    ∃ deriv, invWithDerivatives inv (rows N) = .ok (rows X, deriv) ∧
      ∀ v d, deriv v (rows d) = .ok (rows (-X * d * X)) := by
  refine ⟨_, by unfold invWithDerivatives; rw [h], fun v d => ?_⟩
  rw [npNeg_rows, npDot_rows _ _ (fun h => h), npDot_rows _ _ (fun h => h)]

/-- The state after the calculation of the inverse. -/
theorem inv_main {inv : List (List NR) → PyRes (List (List NR))} (hinv : GoodInv inv) {cs : List (Cmd NR)}
    {s : SState NR} (hs : Reaches cs s)
    {A : Fin n → Fin n → Arg NR} {N : Matrix (Fin n) (Fin n) ℝ} {dA : VarId → Matrix (Fin n) (Fin n) ℝ}
    {S : Fin n → Fin n → Option (Lin NR)} (hA : ∀ i j, SeenAs cs (A i j) (.flt (fin (N i j)), S i j))
    (hS : ∀ i j v, HasDeriv (S i j) v (dA v i j)) (hN : IsUnit N) {ord : List VarId → List VarId}
    (hord : ∀ l, (ord l).Perm l) :
    ∃ (cmds : List (Cmd NR)) (x : Fin n → Fin n → Arg NR) (l : List (Option (SVal NR))),
      ulinalgInv inv ord (after cs) (arr A) = .ok (cmds, arr x) ∧
      (∀ i j, SeenAs (cs ++ cmds) (x i j) (.flt (fin (N⁻¹ i j)),
        resultGrad S fun v => fin ((-N⁻¹ * dA v * N⁻¹) i j))) ∧
      IsArray (cs ++ cmds) x N⁻¹ (fun v => -N⁻¹ * dA v * N⁻¹) ∧ Reaches (cs ++ cmds) { s with env := s.env ++ l } ∧
      (∀ i j, SeenAs (cs ++ cmds) (A i j) (.flt (fin (N i j)), S i j)) := by
  obtain ⟨deriv, h1, h2⟩ := invWithDerivatives_real (hinv n N hN)
  exact arrayFunc_real hs hA hS hord h1 (fun v _ => h2 v (dA v)) (fun v hv => by simp [hv])

/-- **C53**: after any history, for any matrix A of numbers with or without uncertainty, of any size and
with any dependences, whose matrix of nominal values N is invertible, `ulinalg.inv(A)` has the nominal
value N⁻¹, and its derivative with respect to each variable is that of the matrix inverse, along any
family of matrices M(t) with M(t0) = N and with the derivatives of A. -/
theorem C53_inv {inv : List (List NR) → PyRes (List (List NR))} (hinv : GoodInv inv) (cs : List (Cmd NR))
    {A : Fin n → Fin n → Arg NR} {N : Matrix (Fin n) (Fin n) ℝ} {dA : VarId → Matrix (Fin n) (Fin n) ℝ}
    (hA : IsArray cs A N dA) (hN : IsUnit N) {ord : List VarId → List VarId} (hord : ∀ l, (ord l).Perm l) :
    ∃ (cmds : List (Cmd NR)) (x : Fin n → Fin n → Arg NR) (dX : VarId → Matrix (Fin n) (Fin n) ℝ),
      ulinalgInv inv ord (after cs) (arr A) = .ok (cmds, arr x) ∧
      IsArray (cs ++ cmds) x N⁻¹ dX ∧
      ∀ (v : VarId) (M : ℝ → Matrix (Fin n) (Fin n) ℝ) (t0 : ℝ), M t0 = N →
        (∀ i j, HasDerivAt (fun t => M t i j) (dA v i j) t0) →
        ∀ i j, HasDerivAt (fun t => (M t)⁻¹ i j) (dX v i j) t0 := by
  choose S hA hS using hA
  obtain ⟨s, hs⟩ := Reaches.exists cs
  obtain ⟨cmds, x, l, h1, -, h3, -⟩ := inv_main hinv hs hA hS hN hord
  refine ⟨cmds, x, _, h1, h3, fun v M t0 hM hd => ?_⟩
  subst hM
  exact inv_deriv hd hN

/-- A number whose derivatives are null has a null standard deviation, if its variables have finite
standard deviations. -/
theorem stdDev_zero {cs : List (Cmd NR)} {s : SState NR} (hs : Reaches cs s) {y : Arg NR} {x : ℝ}
    {S : Option (Lin NR)} (hy : SeenAs cs y (.flt (fin x), S)) (h0 : ∀ v, HasDeriv S v 0)
    (hσ : ∀ v, gradOf S v ≠ none → ∃ cell σ, s.vars[v]? = some cell ∧ cell.std = fin σ) :
    sees cs (.stdDev y) = .val (.flt (fin 0)) := by
  obtain ⟨sv, h1, h2⟩ := hs.seen hy
  cases sv with
  | plain z =>
    rw [(hs.read (c := .stdDev y) rfl).1]
    simp only [SState.step, h1]
    rfl
  | unc q =>
    simp only [SVal.seen, Prod.mk.injEq] at h2
    obtain ⟨-, rfl⟩ := h2
    have hu : y.sevalUnc s.env = some q := by simp [Arg.sevalUnc, h1]
    have hq := hs.quantity_exists hu
    have hgrad : gradOf (some q.grad) = q.grad := rfl
    rw [hgrad] at hσ
    simp only [HasDeriv, hgrad] at h0
    choose! cell σ hc1 hc2 using hσ
    have hq' : Quantity cs y q.nom q.grad (fun v => fin (σ v)) := by
      refine ⟨hq.nominal, hq.derivatives, fun v hv => ?_⟩
      rw [hq.std v hv, hc1 v hv]
      simp [hc2 v hv]
    have hnan : ∀ v, q.grad v ≠ some nan := by
      intro v hv
      rcases h0 v with h | ⟨h, -⟩ <;> rw [hv] at h <;> cases h
    have hc : ∀ v, coef (q.grad v) = 0 := by
      intro v
      rcases h0 v with h | ⟨h, -⟩ <;> rw [h] <;> rfl
    have := (C05_std_dev_formula hq' hnan (V := Finset.range s.vars.length) (fun v hv =>
      Finset.mem_range.mpr (List.getElem?_eq_some_iff.mp (hc1 v hv)).1)).1
    rw [this]
    simp [hc]

/-- **C53**: A*inv(A) and inv(A)*A have the identity as nominal value, and all their elements have a
null standard deviation (if the standard deviations of the variables are finite). -/
theorem C53_product {inv : List (List NR) → PyRes (List (List NR))} (hinv : GoodInv inv) (cs : List (Cmd NR))
    {A : Fin n → Fin n → Arg NR} {N : Matrix (Fin n) (Fin n) ℝ} {dA : VarId → Matrix (Fin n) (Fin n) ℝ}
    (hA : IsArray cs A N dA) (hN : IsUnit N) {ord : List VarId → List VarId} (hord : ∀ l, (ord l).Perm l)
    (hσ : ∀ i j D v, sees cs (.derivatives (A i j)) = .dict D → D v ≠ none →
      ∃ σ : ℝ, seesKeyStd cs (A i j) v = .val (.flt (fin σ))) :
    ∃ (cmds : List (Cmd NR)) (x : Fin n → Fin n → Arg NR),
      ulinalgInv inv ord (after cs) (arr A) = .ok (cmds, arr x) ∧
      (∃ (cmds' : List (Cmd NR)) (y : Fin n → Fin n → Arg NR),
        matDot (after (cs ++ cmds)) (arr A) (arr x) = .ok (cmds', arr y) ∧
        ∀ i j, sees (cs ++ cmds ++ cmds') (.nominal (y i j)) = .val (.flt (fin (if i = j then 1 else 0))) ∧
          sees (cs ++ cmds ++ cmds') (.stdDev (y i j)) = .val (.flt (fin 0))) ∧
      (∃ (cmds' : List (Cmd NR)) (y : Fin n → Fin n → Arg NR),
        matDot (after (cs ++ cmds)) (arr x) (arr A) = .ok (cmds', arr y) ∧
        ∀ i j, sees (cs ++ cmds ++ cmds') (.nominal (y i j)) = .val (.flt (fin (if i = j then 1 else 0))) ∧
          sees (cs ++ cmds ++ cmds') (.stdDev (y i j)) = .val (.flt (fin 0))) := by
  choose S hA hS using hA
  obtain ⟨s, hs⟩ := Reaches.exists cs
  have hcells : ∀ v, DependsOn S v → ∃ cell σ, s.vars[v]? = some cell ∧ cell.std = fin σ := by
    rintro v ⟨i, j, hv⟩
    have h1 := (hA i j).2
    cases hSij : S i j with
    | none => rw [hSij] at hv; exact absurd rfl hv
    | some D =>
      rw [hSij] at h1 hv
      obtain ⟨q, e1, e2⟩ := hs.derivatives h1
      obtain ⟨σ, hσ⟩ := hσ i j D v h1 hv
      have hq := hs.quantity_exists e1
      obtain ⟨d, hd⟩ := Option.ne_none_iff_exists'.mp hv
      have hlt := hs.wf.keys q (sevalUnc_mem e1) v d (by rw [e2]; exact hd)
      refine ⟨s.vars[v], σ, List.getElem?_eq_getElem hlt, ?_⟩
      have h2 := hq.std v (by rw [e2]; exact hv)
      rw [hσ, List.getElem?_eq_getElem hlt] at h2
      simp only [Option.map_some, Option.getD_some, Out.val.injEq, PyVal.flt.injEq] at h2
      exact h2.symm
  obtain ⟨cmds, x, l, h1, h2, h3, h4, h5⟩ := inv_main hinv hs hA hS hN hord
  have hd := (isUnit_iff_isUnit_det N).mp hN
  have e1 : N * N⁻¹ = 1 := mul_nonsing_inv N hd
  have e2 : N⁻¹ * N = 1 := nonsing_inv_mul N hd
  have hkey : ∀ i j v, gradOf (resultGrad S fun v => fin ((-N⁻¹ * dA v * N⁻¹) i j)) v ≠ none → DependsOn S v := by
    intro i j v hv
    unfold resultGrad at hv
    split_ifs at hv
    · simp only [gradOf, Option.bind_some] at hv
      by_contra hn
      rw [if_neg (fun h => hn h.1)] at hv
      exact hv rfl
    · exact absurd rfl hv
  have hx0 : ∀ i j v, HasDeriv (resultGrad S fun v => fin ((-N⁻¹ * dA v * N⁻¹) i j)) v
      ((fun v => -N⁻¹ * dA v * N⁻¹) v i j) := by
    intro i j v
    refine resultGrad_deriv (dV := fun v => (-N⁻¹ * dA v * N⁻¹) i j) (fun v hv => ?_) v
    have : dA v = 0 := by
      funext i j
      refine (hS i j v).of_none ?_
      by_contra h
      exact hv ⟨i, j, h⟩
    rw [this]; simp
  refine ⟨cmds, x, h1, ?_, ?_⟩
  · obtain ⟨cmds', y, S', l', g1, g2, g3⟩ := matDot_main (K := DependsOn S) h4 (fun h => h) h5 hS
      (fun i j v hv => ⟨i, j, hv⟩) h2 hx0 hkey
    refine ⟨cmds', y, g1, fun i j => ?_⟩
    obtain ⟨g4, g5⟩ := g3 i j
    refine ⟨?_, stdDev_zero g2 g4 (fun v => ?_) (fun v hv => hcells v ((g5 v).2 hv))⟩
    · rw [g4.1, e1, Matrix.one_apply]
    · have := (g5 v).1
      have hz : dA v * N⁻¹ + N * (-N⁻¹ * dA v * N⁻¹) = 0 := by
        rw [Matrix.neg_mul, Matrix.neg_mul, Matrix.mul_neg, ← Matrix.mul_assoc, ← Matrix.mul_assoc, e1,
          Matrix.one_mul, add_neg_cancel]
      rw [hz] at this
      exact this
  · obtain ⟨cmds', y, S', l', g1, g2, g3⟩ := matDot_main (K := DependsOn S) h4 (fun h => h) h2 hx0 hkey h5 hS
      (fun i j v hv => ⟨i, j, hv⟩)
    refine ⟨cmds', y, g1, fun i j => ?_⟩
    obtain ⟨g4, g5⟩ := g3 i j
    refine ⟨?_, stdDev_zero g2 g4 (fun v => ?_) (fun v hv => hcells v ((g5 v).2 hv))⟩
    · rw [g4.1, e2, Matrix.one_apply]
    · have := (g5 v).1
      have hz : -N⁻¹ * dA v * N⁻¹ * N + N⁻¹ * dA v = 0 := by
        rw [Matrix.mul_assoc, e2, Matrix.mul_one, Matrix.neg_mul, neg_add_cancel]
      rw [hz] at this
      exact this

/-- The product of matrices: nominal value, and derivatives of the product. -/
theorem C53_matrix_product {k : ℕ} (cs : List (Cmd NR)) {A : Fin m → Fin k → Arg NR} {B : Fin k → Fin n → Arg NR}
    {N : Matrix (Fin m) (Fin k) ℝ} {M : Matrix (Fin k) (Fin n) ℝ} {dA : VarId → Matrix (Fin m) (Fin k) ℝ}
    {dB : VarId → Matrix (Fin k) (Fin n) ℝ} (hk : 0 < k) (hA : IsArray cs A N dA) (hB : IsArray cs B M dB) :
    ∃ (cmds : List (Cmd NR)) (x : Fin m → Fin n → Arg NR),
      matDot (after cs) (arr A) (arr B) = .ok (cmds, arr x) ∧
      IsArray (cs ++ cmds) x (N * M) (fun v => dA v * M + N * dB v) :=
  matDot_real (by omega) hA hB

/-- An array without uncertainties has an inverse without uncertainties. -/
theorem C53_plain {inv : List (List NR) → PyRes (List (List NR))} (hinv : GoodInv inv) (cs : List (Cmd NR))
    {N : Matrix (Fin n) (Fin n) ℝ} (hN : IsUnit N) {ord : List VarId → List VarId} (hord : ∀ l, (ord l).Perm l) :
    ∃ (cmds : List (Cmd NR)) (x : Fin n → Fin n → Arg NR),
      ulinalgInv inv ord (after cs) (arr fun i j => .const (.flt (fin (N i j)))) = .ok (cmds, arr x) ∧
      ∀ i j, SeenAs (cs ++ cmds) (x i j) (.flt (fin (N⁻¹ i j)), none) := by
  obtain ⟨s, hs⟩ := Reaches.exists cs
  obtain ⟨cmds, x, l, h1, h2, -⟩ := inv_main (A := fun i j => .const (.flt (fin (N i j)))) (dA := fun _ => 0)
    (S := fun _ _ => none) hinv hs (fun i j => hs.seenAs (v := .plain (.flt (fin (N i j)))) rfl)
    (fun i j v => Or.inr ⟨rfl, rfl⟩) hN hord
  refine ⟨cmds, x, h1, fun i j => ?_⟩
  have := h2 i j
  unfold resultGrad at this
  rwa [if_neg (by rintro ⟨v, i, j, h⟩; exact h rfl)] at this

/-! ### Pseudo-inverse -/

theorem pinvWithDerivatives_real {pinv : List (List NR) → NR → PyRes (List (List NR))} {rcond : NR}
    {N : Matrix (Fin m) (Fin n) ℝ} {P : Matrix (Fin n) (Fin m) ℝ} (hm : 0 < m) (hn : 0 < n)
    (h : pinv (rows N) rcond = .ok (rows P)) :
    ∃ deriv, pinvWithDerivatives pinv rcond (rows N) = .ok (rows P, deriv) ∧
      ∀ (v : VarId) (d : Matrix (Fin m) (Fin n) ℝ), deriv v (rows d) = .ok (rows (-(P * (d * P)) + P * Pᵀ * (dᵀ * (1 - N * P)) +
        (1 - P * N) * (dᵀ * (Pᵀ * P)))) := by
  have h1 : (rows N).length = m := by simp [rows]
  have h2 : ((rows N).headD []).length = n := by
    cases m with
    | zero => omega
    | succ m => simp [rows, List.ofFn_succ]
  have sub : ∀ {a b : ℕ} (X Y : Matrix (Fin a) (Fin b) ℝ), npMap2 (· - ·) (rows X) (rows Y) = rows (X - Y) :=
    fun X Y => npMap2_rows (g := fun x y => x - y) (fun x y => rfl) X Y
  have add : ∀ {a b : ℕ} (X Y : Matrix (Fin a) (Fin b) ℝ), npMap2 (· + ·) (rows X) (rows Y) = rows (X + Y) :=
    fun X Y => npMap2_rows (g := fun x y => x + y) (fun x y => rfl) X Y
  refine ⟨_, by unfold pinvWithDerivatives; rw [h], fun v d => ?_⟩
  simp only [h1, h2, npEye_rows]
  rw [npDot_rows N P (by omega), npDot_rows P N (by omega), npT_rows P (by omega), npT_rows d (by omega),
    npDot_rows P Pᵀ (by omega), npDot_rows Pᵀ P (by omega), npNeg_rows, sub, sub, npDot_rows (-P) d (by omega),
    npDot_rows (-P * d) P (by omega), npDot_rows (P * Pᵀ) dᵀ (by omega), npDot_rows _ (1 - N * P) (by omega),
    npDot_rows (1 - P * N) dᵀ (by omega), npDot_rows _ (Pᵀ * P) (by omega), add, add]
  congr 2
  rw [Matrix.neg_mul, Matrix.neg_mul, Matrix.mul_assoc P d P, Matrix.mul_assoc (P * Pᵀ),
    Matrix.mul_assoc (1 - P * N)]

theorem pinv_main {pinv : List (List NR) → NR → PyRes (List (List NR))} {rcond : NR} {cs : List (Cmd NR)}
    {A : Fin m → Fin n → Arg NR} {N : Matrix (Fin m) (Fin n) ℝ} {dA : VarId → Matrix (Fin m) (Fin n) ℝ}
    {P : Matrix (Fin n) (Fin m) ℝ} (hA : IsArray cs A N dA) (hm : 0 < m) (hn : 0 < n)
    (hp : pinv (rows N) rcond = .ok (rows P)) {ord : List VarId → List VarId} (hord : ∀ l, (ord l).Perm l) :
    ∃ (cmds : List (Cmd NR)) (x : Fin n → Fin m → Arg NR),
      ulinalgPinv pinv rcond ord (after cs) (arr A) = .ok (cmds, arr x) ∧
      IsArray (cs ++ cmds) x P (fun v => -(P * (dA v * P)) + P * Pᵀ * ((dA v)ᵀ * (1 - N * P)) +
        (1 - P * N) * ((dA v)ᵀ * (Pᵀ * P))) := by
  choose S hA hS using hA
  obtain ⟨s, hs⟩ := Reaches.exists cs
  obtain ⟨deriv, h1, h2⟩ := pinvWithDerivatives_real hm hn hp
  obtain ⟨cmds, x, l, g1, -, g3, -⟩ := arrayFunc_real hs hA hS hord h1 (fun v _ => h2 v (dA v))
    (fun v hv => by simp [hv])
  exact ⟨cmds, x, g1, g3⟩

/-- **C54**: after any history, for any matrix A of numbers with or without uncertainty, of any size and
rank and with any dependences, if NumPy returns a matrix P that satisfies the four equations of Moore and
Penrose, then `ulinalg.pinv(A)` has the nominal value P. Its derivatives are those of the pseudo-inverse
along any differentiable family of matrices of constant rank: the pseudo-inverse is differentiable,
and the only possible derivatives are those of the result. -/
theorem C54_pinv {pinv : List (List NR) → NR → PyRes (List (List NR))} {rcond : NR} (cs : List (Cmd NR))
    {A : Fin m → Fin n → Arg NR} {N : Matrix (Fin m) (Fin n) ℝ} {dA : VarId → Matrix (Fin m) (Fin n) ℝ}
    {P : Matrix (Fin n) (Fin m) ℝ} (hA : IsArray cs A N dA) (hm : 0 < m) (hn : 0 < n)
    (hp : pinv (rows N) rcond = .ok (rows P)) (hP : Penrose N P)
    {ord : List VarId → List VarId} (hord : ∀ l, (ord l).Perm l) :
    ∃ (cmds : List (Cmd NR)) (x : Fin n → Fin m → Arg NR) (dP : VarId → Matrix (Fin n) (Fin m) ℝ),
      ulinalgPinv pinv rcond ord (after cs) (arr A) = .ok (cmds, arr x) ∧
      IsArray (cs ++ cmds) x P dP ∧
      ∀ (v : VarId) (M : ℝ → Matrix (Fin m) (Fin n) ℝ) (Q : ℝ → Matrix (Fin n) (Fin m) ℝ) (t0 : ℝ), M t0 = N →
        (∀ i j, HasDerivAt (fun t => M t i j) (dA v i j) t0) →
        (∀ᶠ t in 𝓝 t0, Penrose (M t) (Q t)) → (∀ᶠ t in 𝓝 t0, (M t).rank = N.rank) →
        ∀ i j, HasDerivAt (fun t => Q t i j) (dP v i j) t0 := by
  obtain ⟨cmds, x, h1, h2⟩ := pinv_main hA hm hn hp hord
  refine ⟨cmds, x, _, h1, h2, fun v M Q t0 hM hd hQ hr => ?_⟩
  subst hM
  have hQ0 : Q t0 = P := hP.unique hQ.self_of_nhds
  subst hQ0
  exact penrose_deriv hd hQ (penrose_tends (MatDeriv.tends hd) hQ hr)

/-- **C54**: for an invertible matrix, the pseudo-inverse is the inverse, with the same derivatives as
`ulinalg.inv(A)`. -/
theorem C54_invertible {inv : List (List NR) → PyRes (List (List NR))} (hinv : GoodInv inv)
    {pinv : List (List NR) → NR → PyRes (List (List NR))} {rcond : NR} (cs : List (Cmd NR)) (hn : 0 < n)
    {A : Fin n → Fin n → Arg NR} {N P : Matrix (Fin n) (Fin n) ℝ} {dA : VarId → Matrix (Fin n) (Fin n) ℝ}
    (hA : IsArray cs A N dA) (hN : IsUnit N) (hp : pinv (rows N) rcond = .ok (rows P)) (hP : Penrose N P)
    {ord : List VarId → List VarId} (hord : ∀ l, (ord l).Perm l) :
    ∃ (cmds cmds' : List (Cmd NR)) (x x' : Fin n → Fin n → Arg NR) (dX : VarId → Matrix (Fin n) (Fin n) ℝ),
      ulinalgPinv pinv rcond ord (after cs) (arr A) = .ok (cmds, arr x) ∧
      ulinalgInv inv ord (after cs) (arr A) = .ok (cmds', arr x') ∧
      IsArray (cs ++ cmds) x N⁻¹ dX ∧ IsArray (cs ++ cmds') x' N⁻¹ dX := by
  obtain ⟨cmds, x, h1, h2⟩ := pinv_main hA hn hn hp hord
  choose S hA hS using hA
  obtain ⟨s, hs⟩ := Reaches.exists cs
  obtain ⟨cmds', x', l, g1, -, g3, -⟩ := inv_main hinv hs hA hS hN hord
  obtain rfl : P = N⁻¹ := (penrose_inv hN).unique hP
  refine ⟨cmds, cmds', x, x', _, h1, g1, ?_, g3⟩
  have hd := (isUnit_iff_isUnit_det N).mp hN
  have e1 : N * N⁻¹ = 1 := mul_nonsing_inv N hd
  have e2 : N⁻¹ * N = 1 := nonsing_inv_mul N hd
  simp only [e1, e2, sub_self, Matrix.mul_zero, Matrix.zero_mul, add_zero] at h2
  simpa only [Matrix.neg_mul, Matrix.mul_assoc] using h2

/-- The attribute `I` of a matrix: inverse of square matrices, pseudo-inverse of the others. -/
theorem C54_umatrix_I {F : Type} [PyMath F] (inv : List (List F) → PyRes (List (List F)))
    (pinv : List (List F) → F → PyRes (List (List F))) (rcond : F) (ord : List VarId → List VarId) (mach : Machine F)
    (hm : 0 < m) (A : Fin m → Fin n → Arg F) :
    umatrixI inv pinv rcond ord mach (arr A) =
      if m = n then ulinalgInv inv ord mach (arr A) else ulinalgPinv pinv rcond ord mach (arr A) := by
  have h1 : (arr A).length = m := by simp [arr]
  have h2 : ((arr A).headD []).length = n := by
    cases m with
    | zero => omega
    | succ m => simp [arr, List.ofFn_succ]
  unfold umatrixI
  rw [h1, h2]

/-! ### The hypotheses can be met -/

theorem matRows_injective {N N' : Matrix (Fin m) (Fin n) ℝ} (h : rows N = rows N') : N = N' := by
  have h1 := List.ofFn_injective h
  ext i j
  have h2 := List.ofFn_injective (congrFun h1 i)
  simpa using congrFun h2 j

/-- Every real matrix has a pseudo-inverse. -/
theorem penrose_exists (A : Matrix (Fin m) (Fin n) ℝ) : ∃ P, Penrose A P := by
  have hH : (Aᵀ * A).IsHermitian := by
    rw [Matrix.IsHermitian, conjTranspose_eq_transpose_of_trivial, transpose_mul, transpose_transpose]
  obtain ⟨l, U, hU, hG⟩ : ∃ (l : Fin n → ℝ) (U : Matrix (Fin n) (Fin n) ℝ), Uᵀ * U = 1 ∧
      Aᵀ * A = U * diagonal l * Uᵀ := by
    refine ⟨hH.eigenvalues, hH.eigenvectorUnitary, ?_, ?_⟩
    · have := (Unitary.mem_iff.mp hH.eigenvectorUnitary.2).1
      rwa [star_eq_conjTranspose, conjTranspose_eq_transpose_of_trivial] at this
    · have := hH.spectral_theorem
      rw [Unitary.conjStarAlgAut_apply] at this
      rw [star_eq_conjTranspose, conjTranspose_eq_transpose_of_trivial] at this
      exact this
  have mul : ∀ a b : Fin n → ℝ, U * diagonal a * Uᵀ * (U * diagonal b * Uᵀ) = U * diagonal (fun i => a i * b i) * Uᵀ := by
    intro a b
    have : U * diagonal a * Uᵀ * (U * diagonal b * Uᵀ) = U * diagonal a * (Uᵀ * U) * diagonal b * Uᵀ := by
      simp only [Matrix.mul_assoc]
    rw [this, hU, Matrix.mul_one, Matrix.mul_assoc U, diagonal_mul_diagonal]
  have sym : ∀ a : Fin n → ℝ, (U * diagonal a * Uᵀ)ᵀ = U * diagonal a * Uᵀ := by
    intro a
    simp [transpose_mul, Matrix.mul_assoc]
  set B := U * diagonal (fun i => (l i)⁻¹) * Uᵀ with hB
  set G := Aᵀ * A with hGd
  have hBG : (B * G)ᵀ = B * G := by rw [hB, hG, mul, sym]
  have hBs : Bᵀ = B := sym _
  have hGs : Gᵀ = G := by rw [hG, sym]
  have hBGB : B * G * B = B := by
    rw [hB, hG, mul, mul]
    congr 3; funext i
    by_cases h : l i = 0 <;> simp [h]
  have hGBG : G * B * G = G := by
    rw [hB, hG, mul, mul]
    congr 3; funext i
    by_cases h : l i = 0 <;> simp [h]
  have hA : A * B * G = A := by
    have : (A * B * G - A)ᴴ * (A * B * G - A) = 0 := by
      rw [conjTranspose_eq_transpose_of_trivial, transpose_sub, transpose_mul _ G, transpose_mul A B, hBs, hGs,
        Matrix.sub_mul, Matrix.mul_sub, Matrix.mul_sub]
      have e1 : G * (B * Aᵀ) * (A * B * G) = G * B * G * B * G := by
        rw [hGd]; simp only [Matrix.mul_assoc]
      have e2 : G * (B * Aᵀ) * A = G * B * G := by rw [hGd]; simp only [Matrix.mul_assoc]
      have e3 : Aᵀ * (A * B * G) = G * B * G := by rw [hGd]; simp only [Matrix.mul_assoc]
      rw [e1, e2, e3, hGBG, hGBG, ← hGd]; simp
    exact sub_eq_zero.mp (conjTranspose_mul_self_eq_zero.mp this)
  refine ⟨B * Aᵀ, ?_, ?_, ?_, ?_⟩
  · rw [← Matrix.mul_assoc, Matrix.mul_assoc _ Aᵀ A]; exact hA
  · rw [Matrix.mul_assoc B Aᵀ A, ← Matrix.mul_assoc, hBGB]
  · rw [transpose_mul, transpose_mul, hBs, transpose_transpose, Matrix.mul_assoc]
  · rw [Matrix.mul_assoc]; exact hBG

/-- There is a function that returns the inverse of every invertible matrix. -/
theorem goodInv_exists : ∃ inv, GoodInv inv := by
  classical
  refine ⟨fun l => if h : ∃ (n : ℕ) (N : Matrix (Fin n) (Fin n) ℝ), IsUnit N ∧ rows N = l then
    .ok (rows (h.choose_spec.choose)⁻¹) else .error (.other 0), fun n N hN => ?_⟩
  have h : ∃ (n' : ℕ) (N' : Matrix (Fin n') (Fin n') ℝ), IsUnit N' ∧ rows N' = rows N := ⟨n, N, hN, rfl⟩
  beta_reduce
  rw [dif_pos h]
  have key : ∀ (n' : ℕ) (N' : Matrix (Fin n') (Fin n') ℝ), rows N' = rows N → rows N'⁻¹ = rows N⁻¹ := by
    intro n' N' he
    obtain rfl : n' = n := by simpa [rows] using congrArg List.length he
    rw [matRows_injective he]
  rw [key _ _ h.choose_spec.choose_spec.2]

/-- There is a function that returns the pseudo-inverse of every matrix. -/
theorem goodPinv_exists : ∃ pinv : List (List NR) → NR → PyRes (List (List NR)),
    ∀ (m n : ℕ) (N : Matrix (Fin m) (Fin n) ℝ) (rcond : NR), 0 < m →
      ∃ P, pinv (rows N) rcond = .ok (rows P) ∧ Penrose N P := by
  classical
  choose P hP using fun (m n : ℕ) (N : Matrix (Fin m) (Fin n) ℝ) => penrose_exists N
  refine ⟨fun l _ => if h : ∃ (m n : ℕ) (N : Matrix (Fin m) (Fin n) ℝ), rows N = l then
    .ok (rows (P _ _ h.choose_spec.choose_spec.choose)) else .error (.other 0), fun m n N _ hm => ?_⟩
  have h : ∃ (m' n' : ℕ) (N' : Matrix (Fin m') (Fin n') ℝ), rows N' = rows N := ⟨m, n, N, rfl⟩
  refine ⟨P m n N, ?_, hP m n N⟩
  beta_reduce
  rw [dif_pos h]
  have key : ∀ (m' n' : ℕ) (N' : Matrix (Fin m') (Fin n') ℝ), rows N' = rows N →
      rows (P m' n' N') = rows (P m n N) := by
    intro m' n' N' he
    obtain rfl : m' = m := by simpa [rows] using congrArg List.length he
    obtain rfl : n' = n := by
      cases m' with
      | zero => omega
      | succ k =>
        have := congrArg (fun l => (l.headD []).length) he
        simpa [rows, List.ofFn_succ] using this
    rw [matRows_injective he]
  rw [key _ _ _ h.choose_spec.choose_spec.choose_spec]

/-- `x = ufloat(2, 0.1); y = ufloat(3, 0.2)` -/
noncomputable def matCs : List (Cmd NR) := [.ufloat (fin 2) (fin (1/10)) none, .ufloat (fin 3) (fin (1/5)) none]

theorem matCs_reaches : Reaches matCs ⟨[⟨fin 2, fin (1/10), none⟩, ⟨fin 3, fin (1/5), none⟩], opDefs,
    [some (.unc ⟨fin 2, Lin.single 0, some 0⟩), some (.unc ⟨fin 3, Lin.single 1, some 1⟩)]⟩ := by
  have h1 := (Reaches.nil (F := NR)).ufloat (n := fin 2) (std := fin (1/10)) none
    (by simp [specBadStd, PyFloat.ltb])
  have h2 := h1.2.ufloat (n := fin 3) (std := fin (1/5)) none
    (by simp [specBadStd, PyFloat.ltb])
  simpa [SState.init, matCs] using h2.2

/-- `[[x, 1], [y, x]]` -/
noncomputable def matA : Fin 2 → Fin 2 → Arg NR :=
  ![![.ref 0, .const (.flt (fin 1))], ![.ref 1, .ref 0]]

theorem matA_isArray : IsArray matCs matA !![2, 1; 3, 2]
    (fun v => if v = 0 then !![1, 0; 0, 1] else if v = 1 then !![0, 0; 1, 0] else 0) := by
  have hx : SeenAs matCs (.ref 0) (.flt (fin 2), some (Lin.single 0)) :=
    matCs_reaches.seenAs (v := .unc ⟨fin 2, Lin.single 0, some 0⟩) rfl
  have hy : SeenAs matCs (.ref 1) (.flt (fin 3), some (Lin.single 1)) :=
    matCs_reaches.seenAs (v := .unc ⟨fin 3, Lin.single 1, some 1⟩) rfl
  have hc : SeenAs matCs (.const (.flt (fin 1))) (.flt (fin 1), none) :=
    matCs_reaches.seenAs (v := .plain (.flt (fin 1))) rfl
  have single : ∀ (k v : VarId), HasDeriv (some (Lin.single k)) v (if v = k then 1 else 0) := by
    intro k v
    unfold HasDeriv gradOf Lin.single
    by_cases h : v = k
    · left; simp [h, NR.one_eq]
    · right; simp [h]
  intro i j
  fin_cases i <;> fin_cases j
  · refine ⟨_, hx, fun v => ?_⟩
    convert single 0 v using 1
    simp only [Fin.zero_eta]
    split_ifs <;> simp_all
  · refine ⟨_, hc, fun v => Or.inr ⟨rfl, ?_⟩⟩
    beta_reduce
    split_ifs <;> simp_all
  · refine ⟨_, hy, fun v => ?_⟩
    convert single 1 v using 1
    beta_reduce
    split_ifs <;> simp_all
  · refine ⟨_, hx, fun v => ?_⟩
    convert single 0 v using 1
    beta_reduce
    split_ifs <;> simp_all

theorem matA_isUnit : IsUnit (!![2, 1; 3, 2] : Matrix (Fin 2) (Fin 2) ℝ) := by
  rw [isUnit_iff_isUnit_det, det_fin_two_of]; norm_num

/-- The hypotheses of `C53_product` for this matrix. -/
example : ∃ (inv : List (List NR) → PyRes (List (List NR))) (cmds cmds' : List (Cmd NR)) (x y : Fin 2 → Fin 2 → Arg NR),
    ulinalgInv inv _root_.id (after matCs) (arr matA) = .ok (cmds, arr x) ∧
    matDot (after (matCs ++ cmds)) (arr matA) (arr x) = .ok (cmds', arr y) ∧
    sees (matCs ++ cmds ++ cmds') (.nominal (y 1 1)) = .val (.flt (fin 1)) ∧
    sees (matCs ++ cmds ++ cmds') (.stdDev (y 1 1)) = .val (.flt (fin 0)) := by
  obtain ⟨inv, hinv⟩ := goodInv_exists
  obtain ⟨cmds, x, h1, ⟨cmds', y, h2, h3⟩, -⟩ := C53_product hinv matCs matA_isArray matA_isUnit
    (ord := _root_.id) (fun l => List.Perm.refl l) (by
      intro i j D v hD hv
      obtain ⟨q, e1, e2⟩ := matCs_reaches.derivatives hD
      have hq := matCs_reaches.quantity_exists e1
      rw [hq.std v (by rw [e2]; exact hv)]
      obtain ⟨d, hd⟩ := Option.ne_none_iff_exists'.mp hv
      have hlt := matCs_reaches.wf.keys q (sevalUnc_mem e1) v d (by rw [e2]; exact hd)
      simp only [List.length_cons, List.length_nil] at hlt
      rcases (by omega : v = 0 ∨ v = 1) with rfl | rfl
      · exact ⟨1/10, rfl⟩
      · exact ⟨1/5, rfl⟩)
  refine ⟨inv, cmds, cmds', x, y, h1, h2, ?_⟩
  simpa using h3 1 1

/-- The matrix [[1 + t, 0], [0, 0]] has a constant rank around t = 0: `C54_pinv` gives the derivative of
its pseudo-inverse. -/
example : Penrose (!![1, 0; 0, 0] : Matrix (Fin 2) (Fin 2) ℝ) !![1, 0; 0, 0] ∧
    ∀ᶠ t in 𝓝 (0 : ℝ), Penrose (!![1 + t, 0; 0, 0] : Matrix (Fin 2) (Fin 2) ℝ) !![(1 + t)⁻¹, 0; 0, 0] ∧
      (!![1 + t, 0; 0, 0] : Matrix (Fin 2) (Fin 2) ℝ).rank = (!![1, 0; 0, 0] : Matrix (Fin 2) (Fin 2) ℝ).rank := by
  have key : ∀ a : ℝ, a ≠ 0 → Penrose (!![a, 0; 0, 0] : Matrix (Fin 2) (Fin 2) ℝ) !![a⁻¹, 0; 0, 0] := by
    intro a ha
    refine ⟨?_, ?_, ?_, ?_⟩ <;> ext i j <;> fin_cases i <;> fin_cases j <;> simp [Matrix.mul_apply, ha]
  refine ⟨by simpa using key 1 one_ne_zero, ?_⟩
  have : ∀ᶠ t in 𝓝 (0 : ℝ), -1 < t := eventually_gt_nhds (by norm_num)
  filter_upwards [this] with t ht
  have h1 : (1 + t : ℝ) ≠ 0 := by linarith
  refine ⟨key _ h1, ?_⟩
  have e : (!![1 + t, 0; 0, 0] : Matrix (Fin 2) (Fin 2) ℝ) = diagonal ![1 + t, 1] * !![1, 0; 0, 0] := by
    ext i j
    fin_cases i <;> fin_cases j <;> simp [Matrix.mul_apply, Fin.sum_univ_two]
  rw [e]
  refine rank_mul_eq_right_of_isUnit_det _ _ ?_
  rw [det_diagonal]
  simp [Fin.prod_univ_two, h1]

end Unc
