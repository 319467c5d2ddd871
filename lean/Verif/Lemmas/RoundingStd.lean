import Mathlib.Analysis.InnerProductSpace.PiL2
import Verif.Lemmas.RoundingMachine

/-
Rounding errors of standard deviations.
-/

namespace Unc

set_option linter.unusedSectionVars false
set_option autoImplicit false

/-! ### Norms -/

theorem l2norm_eq (f : VarId → ℝ) (n : ℕ) :
    l2norm f n = ‖(WithLp.toLp 2 (fun i : Fin n => f i) : EuclideanSpace ℝ (Fin n))‖ := by
  rw [EuclideanSpace.norm_eq, l2norm, Finset.sum_range]
  simp

theorem l2norm_nonneg (f : VarId → ℝ) (n : ℕ) : 0 ≤ l2norm f n := Real.sqrt_nonneg _

theorem l2norm_mono {f g : VarId → ℝ} {n : ℕ} (h : ∀ v, v < n → |f v| ≤ g v) :
    l2norm f n ≤ l2norm g n := by
  refine Real.sqrt_le_sqrt (Finset.sum_le_sum fun v hv => ?_)
  have := h v (Finset.mem_range.mp hv)
  rw [← sq_abs]
  exact pow_le_pow_left₀ (abs_nonneg _) this 2

theorem l2norm_sub (f g : VarId → ℝ) (n : ℕ) :
    |l2norm f n - l2norm g n| ≤ l2norm (fun v => f v - g v) n := by
  rw [l2norm_eq, l2norm_eq, l2norm_eq]
  have := abs_norm_sub_norm_le (WithLp.toLp 2 (fun i : Fin n => f i) : EuclideanSpace ℝ (Fin n))
    (WithLp.toLp 2 (fun i : Fin n => g i))
  exact this

section floats
variable {F : Type} [PyFloat F] [Rounded F]

local notation "U" => (1 + Rounded.u F)
local notation "H" => (Rounded.η F)

/-! ### Sum of squares -/

/-- Accumulated error of a sum of squares. -/
theorem sumSquares_rounded (l : List F) (acc t : F) (S : ℝ) (k : ℕ) (hS : 0 ≤ S)
    (hacc : Rounded.Fin acc → |Rounded.val acc - S| ≤ U ^ (k + 1) * (S + (k + 1) * H) - S)
    (h : sumSquares l acc = .ok t) (ht : Rounded.Fin t) :
    Rounded.Fin acc ∧ (∀ x ∈ l, Rounded.Fin x) ∧
      |Rounded.val t - (S + (l.map fun x => Rounded.val x ^ 2).sum)| ≤
        U ^ (k + 1 + l.length) * (S + (l.map fun x => Rounded.val x ^ 2).sum + (k + 1 + l.length) * H) -
          (S + (l.map fun x => Rounded.val x ^ 2).sum) := by
  induction l generalizing acc S k with
  | nil =>
    simp only [sumSquares, Except.ok.injEq] at h
    subst h
    refine ⟨ht, by simp, ?_⟩
    simpa using hacc ht
  | cons x l ih =>
    simp only [sumSquares] at h
    split at h
    · cases h
    rename_i y hy
    have hU : (1 : ℝ) ≤ U := U_one
    have hu := Rounded.u_nonneg (F := F)
    have hη := Rounded.η_nonneg (F := F)
    have step : Rounded.Fin (acc + y) → Rounded.Fin acc ∧ Rounded.Fin x ∧
        |Rounded.val (acc + y) - (S + Rounded.val x ^ 2)| ≤
          U ^ (k + 1 + 1) * (S + Rounded.val x ^ 2 + ((k + 1 : ℕ) + 1) * H) -
            (S + Rounded.val x ^ 2) := by
      intro hf
      obtain ⟨f1, f2, f3⟩ := Rounded.add acc y hf
      obtain ⟨f4, f5⟩ := Rounded.sq x y hy f2
      refine ⟨f1, f4, ?_⟩
      have ha := hacc f1
      set a := Rounded.val acc
      set b := Rounded.val y
      set e := Rounded.val x ^ 2
      have he : 0 ≤ e := sq_nonneg _
      set X := U ^ (k + 1) * (S + e + (k + 1 + 1) * H) with hX
      have hp : (1 : ℝ) ≤ U ^ (k + 1) := one_le_pow₀ hU
      have hpU : U ≤ U ^ (k + 1) := by
        calc U = U ^ 1 := (pow_one _).symm
          _ ≤ U ^ (k + 1) := pow_le_pow_right₀ hU (by omega)
      have h1 : |a - S| + |b - e| ≤ X - (S + e) := by
        have : Rounded.u F * e + H + e ≤ U ^ (k + 1) * (e + H) := by
          have h2 := mul_le_mul_of_nonneg_right hpU he
          have h3 := mul_le_mul_of_nonneg_right hp hη
          nlinarith
        rw [hX]
        nlinarith
      have h2 : |a + b - (S + e)| ≤ |a - S| + |b - e| := by
        have : a + b - (S + e) = (a - S) + (b - e) := by ring
        rw [this]; exact abs_add_le _ _
      have h3 : |a + b| ≤ X := by
        have : |a + b| ≤ |a + b - (S + e)| + |S + e| := by
          have := abs_add_le (a + b - (S + e)) (S + e)
          simpa using this
        rw [abs_of_nonneg (by linarith : (0 : ℝ) ≤ S + e)] at this
        linarith
      have h4 : |Rounded.val (acc + y) - (S + e)| ≤ Rounded.u F * X + (X - (S + e)) := by
        have : Rounded.val (acc + y) - (S + e) =
            (Rounded.val (acc + y) - (a + b)) + (a + b - (S + e)) := by ring
        rw [this]
        refine (abs_add_le _ _).trans ?_
        have := mul_le_mul_of_nonneg_left h3 hu
        linarith
      refine h4.trans (le_of_eq ?_)
      rw [hX, pow_succ U (k + 1)]
      push_cast
      ring
    obtain ⟨b1, b2, b3⟩ := ih (acc + y) (S + Rounded.val x ^ 2) (k + 1)
      (add_nonneg hS (sq_nonneg _)) (fun hf => (step hf).2.2) h
    obtain ⟨c1, c2, -⟩ := step b1
    refine ⟨c1, ?_, ?_⟩
    · intro z hz
      rcases List.mem_cons.mp hz with rfl | hz
      · exact c2
      · exact b2 z hz
    · simp only [List.map_cons, List.sum_cons, List.length_cons]
      convert b3 using 2 <;> push_cast <;> ring

theorem sumSquares_zero (l : List F) (t : F) (h : sumSquares l 0 = .ok t) (ht : Rounded.Fin t) :
    (∀ x ∈ l, Rounded.Fin x) ∧
      |Rounded.val t - (l.map fun x => Rounded.val x ^ 2).sum| ≤
        U ^ l.length * ((l.map fun x => Rounded.val x ^ 2).sum + l.length * H) -
          (l.map fun x => Rounded.val x ^ 2).sum := by
  cases l with
  | nil =>
    simp only [sumSquares, Except.ok.injEq] at h
    subst h
    simp [Rounded.val_zero]
  | cons x l =>
    simp only [sumSquares] at h
    split at h
    · cases h
    rename_i y hy
    have hη := Rounded.η_nonneg (F := F)
    have hu := Rounded.u_nonneg (F := F)
    have step : Rounded.Fin (0 + y) → Rounded.Fin x ∧
        |Rounded.val (0 + y) - Rounded.val x ^ 2| ≤ U * (Rounded.val x ^ 2 + H) - Rounded.val x ^ 2 := by
      intro hf
      obtain ⟨-, f2, -⟩ := Rounded.add 0 y hf
      obtain ⟨f4, f5⟩ := Rounded.sq x y hy f2
      rw [Rounded.zero_add y hf]
      refine ⟨f4, f5.trans ?_⟩
      nlinarith [mul_nonneg hu hη]
    obtain ⟨b1, b2, b3⟩ := sumSquares_rounded l (0 + y) t (Rounded.val x ^ 2) 0 (sq_nonneg _)
      (fun hf => by simpa using (step hf).2) h ht
    refine ⟨?_, ?_⟩
    · intro z hz
      rcases List.mem_cons.mp hz with rfl | hz
      · exact (step b1).1
      · exact b2 z hz
    · simp only [List.map_cons, List.sum_cons, List.length_cons]
      convert b3 using 2 <;> push_cast <;> ring

/-- Error of a square root. -/
theorem sqrt_near {A S T q : ℝ} (hA : 1 ≤ A) (hS : 0 ≤ S) (hT : 0 ≤ T) (hq : 0 ≤ q)
    (h : |T - S| ≤ A * (S + q) - S) : |√T - √S| ≤ A * (√S + √q) - √S := by
  obtain ⟨h1, h2⟩ := abs_le.mp h
  have p0 := Real.sqrt_nonneg S
  have q0 := Real.sqrt_nonneg q
  have t0 := Real.sqrt_nonneg T
  have pS := Real.sq_sqrt hS
  have qq := Real.sq_sqrt hq
  have tT := Real.sq_sqrt hT
  set p := √S
  set r := √q
  set t := √T
  rw [abs_le]
  constructor
  · -- t ≥ (2 - A) p - A r
    by_contra hc
    push Not at hc
    have hlt : t < (2 - A) * p - A * r := by linarith
    have h3 : t ^ 2 < ((2 - A) * p - A * r) ^ 2 := pow_lt_pow_left₀ hlt t0 (by norm_num)
    have h4 : 0 < (2 - A) * p - A * r := lt_of_le_of_lt t0 hlt
    have hA2 : 0 < 2 - A := by
      by_contra hn
      have : (2 - A) * p ≤ 0 := mul_nonpos_of_nonpos_of_nonneg (by linarith) p0
      have : 0 ≤ A * r := by positivity
      linarith
    have h5 : (2 - A) * S - A * q ≤ t ^ 2 := by rw [tT]; linarith
    rw [← pS, ← qq] at h5
    have h6 : (2 - A) ^ 2 * p ^ 2 ≤ (2 - A) * p ^ 2 := by
      have : (2 - A) ^ 2 ≤ 2 - A := by nlinarith
      exact mul_le_mul_of_nonneg_right this (sq_nonneg p)
    have h7 : (1 + A) * r ≤ 2 * ((2 - A) * p) := by nlinarith
    have h8 : A * r * ((1 + A) * r) ≤ A * r * (2 * ((2 - A) * p)) :=
      mul_le_mul_of_nonneg_left h7 (by positivity)
    nlinarith
  · have h3 : t ≤ A * (p + r) := by
      refine Real.sqrt_le_iff.mpr ⟨by positivity, ?_⟩
      have h4 : T ≤ A * (p ^ 2 + r ^ 2) := by rw [pS, qq]; linarith
      have h5 : A * (p ^ 2 + r ^ 2) ≤ A ^ 2 * (p ^ 2 + r ^ 2) := by
        have : A ≤ A ^ 2 := by nlinarith
        exact mul_le_mul_of_nonneg_right this (by positivity)
      nlinarith [mul_nonneg p0 q0, sq_nonneg A, mul_nonneg (sq_nonneg A) (mul_nonneg p0 q0)]
    linarith

/-! ### Error components -/

/-- The error component calculated for a derivative. -/
def roundedComp (vars : List (VarCell F)) (v : VarId) (x : F) : F :=
  match vars[v]? with
  | some cell => if PyFloat.eqb cell.std 0 then 0 else PyFloat.abs (x * cell.std)
  | none => 0

theorem errorLoop_rounded (vars : List (VarCell F)) (d : Derivs F)
    (hk : ∀ v ∈ d.map Prod.fst, v < vars.length) :
    errorLoop vars d = .ok (d.map (fun p => (p.1, roundedComp vars p.1 p.2))) := by
  induction d with
  | nil => rfl
  | cons p d ih =>
    obtain ⟨v, x⟩ := p
    have hv : v < vars.length := hk v (by simp)
    have hk' : ∀ u ∈ d.map Prod.fst, u < vars.length := fun u hu => hk u (by
      simp only [List.map_cons, List.mem_cons]; exact Or.inr hu)
    have hg : vars[v]? = some vars[v] := List.getElem?_eq_getElem hv
    simp only [errorLoop, hg, ih hk', List.map_cons, roundedComp]
    split <;> rfl

theorem lookup_comps (vars : List (VarCell F)) (d : Derivs F) (v : VarId) :
    (d.map (fun p => (p.1, roundedComp vars p.1 p.2))).lookup v =
      (d.lookup v).map (roundedComp vars v) := by
  induction d with
  | nil => rfl
  | cons p d ih =>
    obtain ⟨u, x⟩ := p
    simp only [List.map_cons, lookup_cons, ih]
    by_cases h : v = u
    · subst h; simp
    · simp [h]

theorem Info.bound_nonneg {I : Info} (h : I.OK) : 0 ≤ I.bound F := by
  have h0 : 0 ≤ I.mag := (abs_nonneg _).trans h.mag
  have := bound_mono (F := F) (n := 0) (k := 0) (n' := I.depth + I.uses - 1) (k' := I.depth) h0 h.scale
    (by omega) (by omega)
  simp only [pow_zero, sub_self, zero_mul, add_zero, one_mul] at this
  simp only [Info.bound]
  linarith

/-- Error of an error component. -/
theorem roundedComp_near {vars : List (VarCell F)} {v : VarId} {cell : VarCell F} {x : F} {t B : ℝ}
    (hv : vars[v]? = some cell) (h : Rounded.Fin x → |Rounded.val x - t| ≤ B)
    (hf : Rounded.Fin (roundedComp vars v x)) :
    |Rounded.val (roundedComp vars v x) - abs (t * Rounded.val cell.std)| ≤
      U * (B * |Rounded.val cell.std|) + Rounded.u F * |t * Rounded.val cell.std| + H := by
  have hu := Rounded.u_nonneg (F := F)
  have hη := Rounded.η_nonneg (F := F)
  have hU : (1 : ℝ) ≤ U := U_one
  simp only [roundedComp, hv] at hf ⊢
  split
  · rename_i h0
    obtain ⟨-, hz⟩ := Rounded.eqb_zero _ h0
    simp [hz, Rounded.val_zero, hη]
  · rename_i h0
    simp only [h0, Bool.false_eq_true, if_false] at hf
    obtain ⟨f1, f2⟩ := Rounded.abs _ hf
    obtain ⟨f3, f4, f5⟩ := Rounded.mul _ _ f1
    have f6 := h f3
    rw [f2]
    set d := Rounded.val x
    set s := Rounded.val cell.std
    have a1 : |d * s - t * s| ≤ B * |s| := by
      rw [← sub_mul, abs_mul]
      exact mul_le_mul_of_nonneg_right f6 (abs_nonneg _)
    have a2 : |d * s| ≤ B * |s| + |t * s| := by
      have := abs_add_le (d * s - t * s) (t * s)
      rw [sub_add_cancel] at this
      linarith
    have a3 : |Rounded.val (x * cell.std) - t * s| ≤
        Rounded.u F * (B * |s| + |t * s|) + H + B * |s| := by
      have e : Rounded.val (x * cell.std) - t * s =
          (Rounded.val (x * cell.std) - d * s) + (d * s - t * s) := by ring
      rw [e]
      refine (abs_add_le _ _).trans ?_
      have := mul_le_mul_of_nonneg_left a2 hu
      linarith
    refine (abs_abs_sub_abs_le _ _).trans (a3.trans (le_of_eq ?_))
    ring

/-! ### Sums over a dictionary -/

theorem dict_sum (φ : VarId → F → ℝ) (d : Derivs F) (n : ℕ) (hn : KeysNodup d)
    (hk : ∀ v ∈ d.map Prod.fst, v < n) :
    (d.map (fun p => φ p.1 p.2)).sum =
      ∑ v ∈ Finset.range n, (d.lookup v).elim 0 (φ v) := by
  induction d with
  | nil => simp
  | cons p d ih =>
    obtain ⟨u, x⟩ := p
    have hn' : KeysNodup d := (List.nodup_cons.mp hn).2
    have hu : u ∉ d.map Prod.fst := (List.nodup_cons.mp hn).1
    have hk' : ∀ v ∈ d.map Prod.fst, v < n := fun v hv => hk v (by
      simp only [List.map_cons, List.mem_cons]; exact Or.inr hv)
    have hun : u < n := hk u (by simp)
    simp only [List.map_cons, List.sum_cons, ih hn' hk']
    have hl := lookup_eq_none_of_not_mem hu
    rw [← Finset.add_sum_erase (Finset.range n) (fun v => (d.lookup v).elim 0 (φ v))
        (Finset.mem_range.mpr hun),
      ← Finset.add_sum_erase (Finset.range n) (fun v => (((u, x) :: d).lookup v).elim 0 (φ v))
        (Finset.mem_range.mpr hun)]
    simp only [hl, lookup_cons, if_true, Option.elim, zero_add]
    congr 1
    apply Finset.sum_congr rfl
    intro v hv
    have : v ≠ u := (Finset.mem_erase.mp hv).1
    simp [this]

theorem dict_count (d : Derivs F) (g : Grad) (n : ℕ) (hn : KeysNodup d)
    (hk : ∀ v ∈ d.map Prod.fst, v < n) (hd : ∀ v, DictOK (d.lookup v) (g v)) :
    g.count n = d.length := by
  have h1 : (List.range n).filter (fun v => (g v).isSome) = (List.range n).filter (fun v => v ∈ d.map Prod.fst) := by
    apply List.filter_congr
    intro v _
    rw [← (hd v).isSome]
    cases hl : d.lookup v with
    | none =>
      have : v ∉ d.map Prod.fst := by
        intro hm
        obtain ⟨p, hp, rfl⟩ := List.mem_map.mp hm
        have := List.lookup_eq_none_iff.mp hl p hp
        simp at this
      simp only [Option.isSome_none]
      exact (decide_eq_false this).symm
    | some x => simp only [Option.isSome_some]; exact (decide_eq_true (mem_keys_of_lookup hl)).symm
  rw [Grad.count, h1]
  have h2 : ((List.range n).filter (fun v => v ∈ d.map Prod.fst)).Perm (d.map Prod.fst) := by
    refine (List.perm_ext_iff_of_nodup (List.nodup_range.filter _) hn).mpr ?_
    intro v
    simp only [List.mem_filter, List.mem_range, decide_eq_true_eq]
    exact ⟨fun h => h.2, fun h => ⟨hk v h, h⟩⟩
  rw [h2.length_eq]
  simp

end floats

section math
variable {F : Type} [PyMath F] [Rounded F]

theorem l2norm_abs (f : VarId → ℝ) (n : ℕ) : l2norm (fun v => |f v|) n = l2norm f n := by
  simp [l2norm, sq_abs]

/-- Each error component approximates the exact one. -/
theorem comp_near {w : World F} {g : NodeId → Grad} (h : RndInv w g) {u : UF F} {d : Derivs F}
    (hk : ∀ v ∈ d.map Prod.fst, v < w.vars.length) (hd : ∀ v, DictOK (d.lookup v) (g u.lin v)) (v : VarId)
    (hf : ∀ x, d.lookup v = some x → Rounded.Fin (roundedComp w.vars v x)) :
    |(d.lookup v).elim 0 (fun x => Rounded.val (roundedComp w.vars v x)) -
        abs ((g u.lin).term (w.vars.map VarCell.rabs) v)| ≤
      (g u.lin).termBound (w.vars.map VarCell.rabs) v := by
  have := hd v
  cases hl : d.lookup v with
  | none =>
    rw [hl] at this
    cases hg : g u.lin v with
    | none => simp [Grad.term, Grad.termBound, hg]
    | some I => rw [hg] at this; cases this
  | some x =>
    rw [hl] at this
    cases hg : g u.lin v with
    | none => rw [hg] at this; cases this
    | some I =>
      rw [hg] at this
      have hv := hk v (mem_keys_of_lookup hl)
      have hc : w.vars[v]? = some w.vars[v] := List.getElem?_eq_getElem hv
      have := roundedComp_near hc (t := I.exact) (B := I.bound F) (fun f3 => this.near f3) (hf x hl)
      simpa [Grad.term, Grad.termBound, hg, hc, VarCell.rabs] using this

/-- Error of a standard deviation, when the error components approximate `T`, with errors at most `B`. -/
theorem World.affStdDev_near {w : World F} {g : NodeId → Grad} (h : RndInv w g) {u : UF F}
    (hu : u.Valid w) {y : F} (hy : (w.affStdDev u).2 = .ok y) (hf : Rounded.Fin y) (T B : VarId → ℝ)
    (hTB : ∀ d : Derivs F, (∀ v ∈ d.map Prod.fst, v < w.vars.length) → (∀ v, DictOK (d.lookup v) (g u.lin v)) →
      ∀ v, v < w.vars.length → (∀ x, d.lookup v = some x → Rounded.Fin (roundedComp w.vars v x)) →
        |(d.lookup v).elim 0 (fun x => Rounded.val (roundedComp w.vars v x)) - (|T v|)| ≤ B v) :
    |Rounded.val y - l2norm T w.vars.length| ≤
      (1 + Rounded.u F) ^ ((g u.lin).count w.vars.length + 1) *
        (l2norm T w.vars.length + l2norm B w.vars.length + √((g u.lin).count w.vars.length * Rounded.η F)) -
        l2norm T w.vars.length := by
  obtain ⟨w', d, a1, a2, a3, a4, a5⟩ := World.derivatives_rounded h hu
  have hloop := errorLoop_rounded w.vars d a5
  simp only [World.affStdDev, World.errorComponents, a1, a2.reads.vars, hloop, List.map_map] at hy
  have hmap : (List.map (Prod.snd ∘ fun p => (p.1, roundedComp w.vars p.1 p.2)) d) =
      d.map (fun p => roundedComp w.vars p.1 p.2) := rfl
  rw [hmap] at hy
  cases hs : sumSquares (d.map (fun p => roundedComp w.vars p.1 p.2)) 0 with
  | error e => rw [hs] at hy; cases hy
  | ok t =>
  rw [hs] at hy
  simp only at hy
  obtain ⟨f1, f2, f3⟩ := Rounded.sqrt t y hy hf
  obtain ⟨b1, b2⟩ := sumSquares_zero _ t hs f1
  set gr := g u.lin with hgr
  set N := w.vars.length
  set e : VarId → ℝ := fun v => (d.lookup v).elim 0 (fun x => Rounded.val (roundedComp w.vars v x))
    with he
  have hcount : gr.count N = d.length := dict_count d gr N a3 a5 a4
  have hsum : ((d.map (fun p => roundedComp w.vars p.1 p.2)).map fun x => Rounded.val x ^ 2).sum =
      ∑ v ∈ Finset.range N, e v ^ 2 := by
    rw [List.map_map]
    have := dict_sum (fun v x => Rounded.val (roundedComp w.vars v x) ^ 2) d N a3 a5
    refine Eq.trans ?_ (this.trans ?_)
    · rfl
    · apply Finset.sum_congr rfl
      intro v _
      simp only [he]
      cases d.lookup v <;> simp
  rw [hsum, List.length_map] at b2
  have hS : 0 ≤ ∑ v ∈ Finset.range N, e v ^ 2 := Finset.sum_nonneg fun v _ => sq_nonneg _
  have hη := Rounded.η_nonneg (F := F)
  have hu0 := Rounded.u_nonneg (F := F)
  have hU : (1 : ℝ) ≤ 1 + Rounded.u F := U_one
  have hA : (1 : ℝ) ≤ (1 + Rounded.u F) ^ d.length := one_le_pow₀ hU
  have c1 := sqrt_near hA hS f2 (q := d.length * Rounded.η F) (by positivity) b2
  have hfin : ∀ v x, d.lookup v = some x → Rounded.Fin (roundedComp w.vars v x) := by
    intro v x hx
    exact b1 _ (List.mem_map.mpr ⟨(v, x), mem_of_lookup hx, rfl⟩)
  have c2 : |l2norm e N - l2norm T N| ≤ l2norm B N := by
    rw [← l2norm_abs T]
    refine (l2norm_sub _ _ N).trans (l2norm_mono fun v hv => ?_)
    exact hTB d a5 a4 v hv (fun x hx => hfin v x hx)
  change |√(Rounded.val t) - l2norm e N| ≤ (1 + Rounded.u F) ^ d.length *
    (l2norm e N + √(d.length * Rounded.η F)) - l2norm e N at c1
  simp only [hcount]
  set A := (1 + Rounded.u F) ^ d.length with hAdef
  set Ne := l2norm e N
  set NT := l2norm T N
  set NE := l2norm B N
  set Q := √(d.length * Rounded.η F)
  have hNe : 0 ≤ Ne := l2norm_nonneg _ _
  have hQ : 0 ≤ Q := Real.sqrt_nonneg _
  have hNE : 0 ≤ NE := l2norm_nonneg _ _
  have c3 : √(Rounded.val t) ≤ A * (Ne + Q) := by
    have := (abs_le.mp c1).2; linarith
  have c4 : |Rounded.val y - Ne| ≤ (1 + Rounded.u F) * (A * (Ne + Q)) - Ne := by
    have e1 : Rounded.val y - Ne = (Rounded.val y - √(Rounded.val t)) + (√(Rounded.val t) - Ne) := by ring
    rw [e1]
    refine (abs_add_le _ _).trans ?_
    have := mul_le_mul_of_nonneg_left c3 hu0
    nlinarith
  have c5 : Ne ≤ NT + NE := by have := (abs_le.mp c2).2; linarith
  have hA' : 1 ≤ (1 + Rounded.u F) * A := one_le_mul_of_one_le_of_one_le hU hA
  rw [pow_succ, mul_comm ((1 + Rounded.u F) ^ d.length)]
  have e2 : Rounded.val y - NT = (Rounded.val y - Ne) + (Ne - NT) := by ring
  rw [e2]
  refine (abs_add_le _ _).trans ?_
  have c6 := mul_le_mul_of_nonneg_left c5 (sub_nonneg.mpr hA')
  rw [← hAdef]
  nlinarith

/-- Error of a standard deviation. -/
theorem World.affStdDev_rounded {w : World F} {g : NodeId → Grad} (h : RndInv w g) {u : UF F}
    (hu : u.Valid w) {y : F} (hy : (w.affStdDev u).2 = .ok y) (hf : Rounded.Fin y) :
    |Rounded.val y - (g u.lin).std (w.vars.map VarCell.rabs)| ≤
      (g u.lin).stdBound (w.vars.map VarCell.rabs) := by
  simp only [Grad.stdBound, Grad.std, List.length_map]
  exact World.affStdDev_near h hu hy hf _ _ fun d a5 a4 v _ hx => comp_near h a5 a4 v hx

/-- `std_dev`, also for variables. -/
theorem World.stdDev_rounded {w : World F} {g : NodeId → Grad} (h : RndInv w g) {u : UF F}
    (hu : u.Valid w) {y : F} (hy : (w.stdDev u).2 = .ok y) (hf : Rounded.Fin y) :
    |Rounded.val y - (g u.lin).std (w.vars.map VarCell.rabs)| ≤
      (g u.lin).stdBound (w.vars.map VarCell.rabs) := by
  simp only [World.stdDev] at hy
  cases huv : u.var with
  | none => rw [huv] at hy; exact World.affStdDev_rounded h hu hy hf
  | some v =>
    obtain ⟨cell, k1, k2, k3⟩ := hu.2 v huv
    rw [huv] at hy
    simp only [k1, Except.ok.injEq] at hy
    subst hy
    have hlt := (List.getElem?_eq_some_iff.mp k1).1
    have hb := h.shape.std v cell k1
    have hpos : 0 ≤ Rounded.val cell.std := by
      refine Rounded.ltb_zero _ hf ?_
      simp only [specBadStd, Rounded.isInf _ hf, Bool.not_false, Bool.and_true] at hb
      exact hb
    have hg : g u.lin = Grad.single v := by rw [← k2]; exact h.vlin v cell k1
    have hstd : (g u.lin).std (w.vars.map VarCell.rabs) = Rounded.val cell.std := by
      rw [hg]
      simp only [Grad.std, l2norm, List.length_map]
      rw [Finset.sum_eq_single v]
      · simp only [Grad.term, Grad.single, if_true, List.getElem?_map, k1, Option.map]
        rw [one_mul]
        exact Real.sqrt_sq hpos
      · intro b _ hb
        simp [Grad.term, Grad.single, hb]
      · intro hn
        exact absurd (Finset.mem_range.mpr hlt) hn
    rw [hstd, sub_self, abs_zero]
    simp only [Grad.stdBound, hstd]
    have hU : (1 : ℝ) ≤ 1 + Rounded.u F := U_one
    have hA : (1 : ℝ) ≤ (1 + Rounded.u F) ^
        ((g u.lin).count (w.vars.map VarCell.rabs).length + 1) := one_le_pow₀ hU
    have n1 := l2norm_nonneg ((g u.lin).termBound (w.vars.map VarCell.rabs))
      (w.vars.map VarCell.rabs).length
    have n2 := Real.sqrt_nonneg ((g u.lin).count (w.vars.map VarCell.rabs).length * Rounded.η F)
    nlinarith

end math

end Unc
