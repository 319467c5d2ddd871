import Verif.Lemmas.RoundingStd
import Verif.Model.CovSum
import Verif.Spec.RoundingCov
import Verif.Spec.Observe

/-!
# Rounding errors of covariances
-/

namespace Unc

set_option linter.unusedSectionVars false
set_option autoImplicit false

/-! ### Errors of products and sums -/

/-- `x` approximates `X`: if `|X| ≤ A`, then `|x| ≤ m`. -/
def Majorized (m x X A : ℝ) : Prop := |X| ≤ A ∧ |x - X| ≤ m - A

theorem Majorized.le {m x X A : ℝ} (h : Majorized m x X A) : |x| ≤ m := by
  have := abs_add_le (x - X) X
  rw [sub_add_cancel] at this
  linarith [h.1, h.2]

theorem Majorized.mul {m x X A n y Y B : ℝ} (h : Majorized m x X A) (k : Majorized n y Y B) :
    Majorized (m * n) (x * y) (X * Y) (A * B) := by
  refine ⟨by rw [abs_mul]; exact mul_le_mul h.1 k.1 (abs_nonneg _) ((abs_nonneg _).trans h.1), ?_⟩
  have e : x * y - X * Y = (x - X) * (y - Y) + (X * (y - Y) + Y * (x - X)) := by ring
  rw [e]
  refine (abs_add_le _ _).trans ?_
  refine (add_le_add_right (abs_add_le _ _) _).trans ?_
  rw [abs_mul, abs_mul, abs_mul]
  have hx := abs_nonneg (x - X)
  have hy := abs_nonneg (y - Y)
  have h1 := mul_le_mul h.2 k.2 hy (hx.trans h.2)
  have h2 := mul_le_mul h.1 k.2 hy ((abs_nonneg _).trans h.1)
  have h3 := mul_le_mul k.1 h.2 hx ((abs_nonneg _).trans k.1)
  nlinarith

theorem Majorized.round {m x X A x' u η : ℝ} (h : Majorized m x X A) (hu : 0 ≤ u)
    (hr : |x' - x| ≤ u * |x| + η) : Majorized ((1 + u) * m + η) x' X A := by
  refine ⟨h.1, ?_⟩
  have e : x' - X = (x' - x) + (x - X) := by ring
  rw [e]
  refine (abs_add_le _ _).trans ?_
  have := mul_le_mul_of_nonneg_left h.le hu
  linarith [h.2]

theorem Majorized.add {m x X A n y Y B z u : ℝ} (h : Majorized m x X A) (k : Majorized n y Y B) (hu : 0 ≤ u)
    (hr : |z - (x + y)| ≤ u * |x + y|) : Majorized ((1 + u) * (m + n)) z (X + Y) (A + B) := by
  refine ⟨(abs_add_le _ _).trans (add_le_add h.1 k.1), ?_⟩
  have e : z - (X + Y) = (z - (x + y)) + ((x - X) + (y - Y)) := by ring
  rw [e]
  refine (abs_add_le _ _).trans ?_
  have h1 := abs_add_le (x - X) (y - Y)
  have h2 : |x + y| ≤ m + n := (abs_add_le _ _).trans (add_le_add h.le k.le)
  have h3 := mul_le_mul_of_nonneg_left h2 hu
  linarith [h.2, k.2]

theorem Majorized.mono {m m' x X A : ℝ} (h : Majorized m x X A) (hm : m ≤ m') : Majorized m' x X A :=
  ⟨h.1, h.2.trans (by linarith)⟩

section floats
variable {F : Type} [PyFloat F] [Rounded F]

local notation "U" => (1 + Rounded.u F)
local notation "H" => (Rounded.η F)

/-- One term of the sum. -/
theorem covTerm_majorized {a b s s2 : F} {I J : Info} (ha : DictOK (some a) (some I))
    (hb : DictOK (some b) (some J)) (hs : PyFloat.sq s = .ok s2) (hf : Rounded.Fin (a * b * s2)) :
    Majorized (U * ((U * ((|I.exact| + I.bound F) * (|J.exact| + J.bound F)) + H) *
        (U * Rounded.val s ^ 2 + H)) + H) (Rounded.val (a * b * s2))
      (I.exact * J.exact * Rounded.val s ^ 2) |I.exact * J.exact * Rounded.val s ^ 2| := by
  have hu := Rounded.u_nonneg (F := F)
  obtain ⟨f1, f2, f3⟩ := Rounded.mul _ _ hf
  obtain ⟨f4, f5, f6⟩ := Rounded.mul _ _ f1
  obtain ⟨-, f7⟩ := Rounded.sq _ _ hs f2
  have n1 := ha.near f4
  have n2 := hb.near f5
  change |Rounded.val a - I.exact| ≤ I.bound F at n1
  change |Rounded.val b - J.exact| ≤ J.bound F at n2
  have w1 : Majorized (|I.exact| + I.bound F) (Rounded.val a) I.exact |I.exact| := ⟨le_rfl, by linarith⟩
  have w2 : Majorized (|J.exact| + J.bound F) (Rounded.val b) J.exact |J.exact| := ⟨le_rfl, by linarith⟩
  have w3 := (w1.mul w2).round hu f6
  have w4 : Majorized (U * Rounded.val s ^ 2 + H) (Rounded.val s2) (Rounded.val s ^ 2) (Rounded.val s ^ 2) :=
    ⟨by rw [abs_of_nonneg (sq_nonneg _)], by linarith⟩
  have w5 := (w3.mul w4).round hu f3
  rwa [← abs_mul, ← abs_of_nonneg (sq_nonneg (Rounded.val s)), ← abs_mul,
    abs_of_nonneg (sq_nonneg (Rounded.val s))] at w5

variable {vars : List (RVar F)} {D1 D2 : VarId → Option F} {g h : Grad}

theorem Grad.covTermMax_nonneg (hg : g.OK) (hh : h.OK) (v : VarId) : 0 ≤ g.covTermMax h vars v := by
  have hη := Rounded.η_nonneg (F := F)
  have hu := Rounded.u_nonneg (F := F)
  unfold Grad.covTermMax
  split
  · rename_i I J cell e1 e2 e3
    have h1 := Info.bound_nonneg (F := F) (hg v I e1)
    have h2 := Info.bound_nonneg (F := F) (hh v J e2)
    positivity
  · exact le_rfl

/-- The sum in any order. -/
theorem covSum_majorized (hd1 : ∀ v, DictOK (D1 v) (g v)) (hd2 : ∀ v, DictOK (D2 v) (h v)) (hg : g.OK) (hh : h.OK)
    (vs : List VarId) (acc y : F) (X A m : ℝ) (k : ℕ)
    (hacc : Rounded.Fin acc → Majorized (U ^ k * m) (Rounded.val acc) X A) (hm : 0 ≤ m)
    (hy : covSum (fun v => (vars[v]?).map RVar.std) D1 D2 vs acc = .ok y) (hf : Rounded.Fin y) :
    Rounded.Fin acc ∧
    Majorized (U ^ (k + vs.length) * (m + (vs.map (g.covTermMax h vars)).sum)) (Rounded.val y)
      (X + (vs.map (g.covTerm h vars)).sum) (A + (vs.map fun v => |g.covTerm h vars v|).sum) := by
  induction vs generalizing acc X A m k with
  | nil =>
    simp only [covSum, Except.ok.injEq] at hy
    subst hy
    exact ⟨hf, by simpa using hacc hf⟩
  | cons v vs ih =>
    simp only [covSum] at hy
    split at hy
    · rename_i a b e1 e2
      split at hy
      · cases hy
      · rename_i s e3
        split at hy
        · cases hy
        · rename_i s2 e4
          have hu := Rounded.u_nonneg (F := F)
          have hU : (1 : ℝ) ≤ U := U_one
          have p1 := hd1 v
          have p2 := hd2 v
          rw [e1] at p1
          rw [e2] at p2
          cases q1 : g v with
          | none => rw [q1] at p1; exact p1.elim
          | some I =>
          cases q2 : h v with
          | none => rw [q2] at p2; exact p2.elim
          | some J =>
          rw [q1] at p1
          rw [q2] at p2
          obtain ⟨cell, c1, c2⟩ := Option.map_eq_some_iff.mp e3
          have hT : g.covTerm h vars v = I.exact * J.exact * Rounded.val s ^ 2 := by
            simp only [Grad.covTerm, q1, q2, c1, c2]
          have hM : g.covTermMax h vars v = U * ((U * ((|I.exact| + I.bound F) * (|J.exact| + J.bound F)) + H) *
              (U * Rounded.val s ^ 2 + H)) + H := by
            simp only [Grad.covTermMax, q1, q2, c1, c2]
          have hM0 := Grad.covTermMax_nonneg (vars := vars) hg hh v
          obtain ⟨r1, r2⟩ := ih (acc + a * b * s2) (X + g.covTerm h vars v) (A + |g.covTerm h vars v|)
            (m + g.covTermMax h vars v) (k + 1) (fun hf' => by
              obtain ⟨f1, f2, f3⟩ := Rounded.add _ _ hf'
              have w := covTerm_majorized p1 p2 e4 f2
              rw [← hT, ← hM] at w
              refine ((hacc f1).add w hu f3).mono ?_
              rw [pow_succ]
              have : g.covTermMax h vars v ≤ U ^ k * g.covTermMax h vars v :=
                le_mul_of_one_le_left hM0 (one_le_pow₀ hU)
              nlinarith) (by linarith) hy
          refine ⟨(Rounded.add _ _ r1).1, ?_⟩
          simp only [List.length_cons, List.map_cons, List.sum_cons]
          have e5 : k + (vs.length + 1) = k + 1 + vs.length := by omega
          rw [e5, ← add_assoc, ← add_assoc, ← add_assoc]
          exact r2
    · cases hy

/-- Sum over the common variables. -/
theorem list_sum_common (φ : VarId → ℝ) (n : ℕ) (vs : List VarId) (hn : vs.Nodup)
    (hv : ∀ v, v ∈ vs ↔ (g v).isSome ∧ (h v).isSome) (hlt : ∀ v, v ∈ vs → v < n)
    (h0 : ∀ v, ¬ ((g v).isSome ∧ (h v).isSome) → φ v = 0) :
    (vs.map φ).sum = ∑ v ∈ Finset.range n, φ v := by
  rw [← List.sum_toFinset _ hn]
  refine Finset.sum_subset ?_ ?_
  · intro v hm
    rw [List.mem_toFinset] at hm
    exact Finset.mem_range.mpr (hlt v hm)
  · intro v _ hm
    rw [List.mem_toFinset, hv] at hm
    exact h0 v hm

theorem covCount_eq (n : ℕ) (vs : List VarId) (hn : vs.Nodup)
    (hv : ∀ v, v ∈ vs ↔ (g v).isSome ∧ (h v).isSome) (hlt : ∀ v, v ∈ vs → v < n) :
    g.covCount h n = vs.length := by
  refine List.Perm.length_eq ((List.perm_ext_iff_of_nodup (List.nodup_range.filter _) hn).mpr fun v => ?_)
  simp only [List.mem_filter, List.mem_range, Bool.and_eq_true, hv]
  exact ⟨fun k => k.2, fun k => ⟨hlt v ((hv v).mpr k), k⟩⟩

/-- Error of the covariance. -/
theorem covSum_near (hd1 : ∀ v, DictOK (D1 v) (g v)) (hd2 : ∀ v, DictOK (D2 v) (h v)) (hg : g.OK) (hh : h.OK)
    (vs : List VarId) (hn : vs.Nodup) (hv : ∀ v, v ∈ vs ↔ (D1 v).isSome ∧ (D2 v).isSome)
    (hlt : ∀ v, v ∈ vs → v < vars.length) {y : F}
    (hy : covSum (fun v => (vars[v]?).map RVar.std) D1 D2 vs 0 = .ok y) (hf : Rounded.Fin y) :
    |Rounded.val y - g.cov h vars| ≤ g.covBound h vars := by
  have hv' : ∀ v, v ∈ vs ↔ (g v).isSome ∧ (h v).isSome := fun v => by
    rw [hv, (hd1 v).isSome, (hd2 v).isSome]
  have key := (covSum_majorized hd1 hd2 hg hh vs 0 y 0 0 0 0
    (fun _ => by simp [Majorized, Rounded.val_zero]) le_rfl hy hf).2
  have hz : ∀ v, ¬ ((g v).isSome ∧ (h v).isSome) → g.covTerm h vars v = 0 ∧ g.covTermMax h vars v = 0 := by
    intro v hm
    unfold Grad.covTerm Grad.covTermMax
    cases e1 : g v with
    | none => exact ⟨rfl, rfl⟩
    | some I =>
      cases e2 : h v with
      | none => exact ⟨rfl, rfl⟩
      | some J => rw [e1, e2] at hm; simp at hm
  rw [list_sum_common (g.covTerm h vars) vars.length vs hn hv' hlt (fun v hm => (hz v hm).1),
    list_sum_common (g.covTermMax h vars) vars.length vs hn hv' hlt (fun v hm => (hz v hm).2),
    list_sum_common (fun v => |g.covTerm h vars v|) vars.length vs hn hv' hlt
      (fun v hm => by rw [(hz v hm).1, abs_zero])] at key
  simp only [zero_add] at key
  rw [Grad.covBound, covCount_eq vars.length vs hn hv' hlt]
  exact key.2

theorem lookup_of_mem_keys {d : Derivs F} (hn : KeysNodup d) {v : VarId} {a : F} (h : (v, a) ∈ d) :
    d.lookup v = some a := by
  induction d with
  | nil => cases h
  | cons p d ih =>
    obtain ⟨w, b⟩ := p
    have hn' : KeysNodup d := (List.nodup_cons.mp hn).2
    have hw : w ∉ d.map Prod.fst := (List.nodup_cons.mp hn).1
    rw [lookup_cons]
    rcases List.mem_cons.mp h with h' | h'
    · cases h'; simp
    · have : v ≠ w := by
        rintro rfl
        exact hw (List.mem_map.mpr ⟨(v, a), h', rfl⟩)
      rw [if_neg this, ih hn' h']

/-- `covElem` is the sum in the order of the first dictionary. -/
theorem covElem_covSum (cells : List (VarCell F)) (d1 d2 : Derivs F) (hn : KeysNodup d1) (acc : F) :
    covElem cells d2 d1 acc =
      covSum (fun v => (cells[v]?).map VarCell.std) (fun v => d1.lookup v) (fun v => d2.lookup v)
        ((d1.map Prod.fst).filter fun v => (d2.lookup v).isSome) acc := by
  suffices hall : ∀ (d : Derivs F) (acc : F), (∀ v a, (v, a) ∈ d → d1.lookup v = some a) →
      covElem cells d2 d acc =
      covSum (fun v => (cells[v]?).map VarCell.std) (fun v => d1.lookup v) (fun v => d2.lookup v)
        ((d.map Prod.fst).filter fun v => (d2.lookup v).isSome) acc from
    hall d1 acc (fun v a hm => lookup_of_mem_keys hn hm)
  intro d
  induction d with
  | nil => intro acc _; rfl
  | cons p d ih =>
    obtain ⟨v, a⟩ := p
    intro acc hd
    have h1 := hd v a (by simp)
    have ih' := fun acc => ih acc (fun v a hm => hd v a (by simp [hm]))
    simp only [covElem, List.map_cons]
    cases e : d2.lookup v with
    | none => rw [List.filter_cons_of_neg (by simp [e])]; exact ih' acc
    | some b =>
      rw [List.filter_cons_of_pos (by simp [e])]
      simp only [covSum, h1, e]
      cases cells[v]? with
      | none => rfl
      | some cell =>
        simp only [Option.map_some]
        cases PyFloat.sq cell.std with
        | error e => rfl
        | ok s2 => exact ih' _

end floats

/-! ### The matrix -/

section matrix
variable {F : Type} [PyFloat F]

theorem column_ok {i : Nat} {rows : List (List F)} {col : List F} (h : column i rows = .ok col) :
    col.length = rows.length ∧ ∀ k : Nat, col[k]? = (rows[k]?).bind (fun row : List F => row[i]?) := by
  induction rows generalizing col with
  | nil => simp only [column, Except.ok.injEq] at h; subst h; simp
  | cons row rows ih =>
    simp only [column] at h
    split at h
    · cases h
    · rename_i x hx
      split at h
      · cases h
      · rename_i l hl
        simp only [Except.ok.injEq] at h
        subst h
        obtain ⟨a1, a2⟩ := ih hl
        refine ⟨by simp [a1], fun k => ?_⟩
        cases k with
        | zero => simp [hx]
        | succ k => simpa using a2 k

theorem symmetrize_ok {i : Nat} {rows M : List (List F)} (h : symmetrize i rows = .ok M) :
    M.length = rows.length ∧ ∀ k row, rows[k]? = some row →
      ∃ col, column (i + k) (rows.drop (k + 1)) = .ok col ∧ M[k]? = some (row ++ col) := by
  induction rows generalizing i M with
  | nil => simp only [symmetrize, Except.ok.injEq] at h; subst h; simp
  | cons row rows ih =>
    simp only [symmetrize] at h
    split at h
    · cases h
    · rename_i col hcol
      split at h
      · cases h
      · rename_i m hm
        simp only [Except.ok.injEq] at h
        subst h
        obtain ⟨a1, a2⟩ := ih hm
        refine ⟨by simp [a1], fun k r hk => ?_⟩
        cases k with
        | zero =>
          simp only [List.getElem?_cons_zero, Option.some.injEq] at hk
          subst hk
          exact ⟨col, by simpa using hcol, by simp⟩
        | succ k =>
          obtain ⟨c, c1, c2⟩ := a2 k r (by simpa using hk)
          exact ⟨c, by rw [show i + (k + 1) = i + 1 + k by omega]; simpa using c1, by simpa using c2⟩

/-- Elements of a symmetrized triangular matrix. -/
theorem symmetrize_entry {rows M : List (List F)} (h : symmetrize 0 rows = .ok M)
    (hl : ∀ k row, rows[k]? = some row → row.length = k + 1) :
    M.length = rows.length ∧ (∀ row ∈ M, row.length = rows.length) ∧
      ∀ i j, i < rows.length → j < rows.length →
        (i ≤ j → entry M i j = entry rows j i) ∧ (j ≤ i → entry M i j = entry rows i j) := by
  obtain ⟨a1, a2⟩ := symmetrize_ok h
  refine ⟨a1, ?_, ?_⟩
  · intro row hr
    obtain ⟨k, hk⟩ := List.getElem?_of_mem hr
    have hlt : k < rows.length := by rw [← a1]; exact (List.getElem?_eq_some_iff.mp hk).1
    have hrow : rows[k]? = some rows[k] := List.getElem?_eq_getElem hlt
    obtain ⟨col, c1, c2⟩ := a2 k _ hrow
    rw [hk] at c2
    cases c2
    have := (column_ok c1).1
    have := hl k _ hrow
    simp only [List.length_append, List.length_drop] at *
    omega
  · intro i j hi hj
    have hrow : rows[i]? = some rows[i] := List.getElem?_eq_getElem hi
    obtain ⟨col, c1, c2⟩ := a2 i _ hrow
    have hlen := hl i _ hrow
    obtain ⟨b1, b2⟩ := column_ok c1
    constructor
    · intro hij
      simp only [entry, c2, Option.bind_some]
      rcases Nat.lt_or_eq_of_le hij with hlt | rfl
      · rw [List.getElem?_append_right (by omega), b2, List.getElem?_drop, hlen]
        simp only [Nat.zero_add]
        rw [show i + 1 + (j - (i + 1)) = j by omega]
      · rw [List.getElem?_append_left (by omega), hrow]
        simp
    · intro hij
      simp only [entry, c2, hrow, Option.bind_some]
      rw [List.getElem?_append_left (by omega)]

theorem covRow_length (d1 : Derivs F) (us : List (UF F)) {w w' : World F} {l : List F}
    (h : World.covRow d1 us w = (w', .ok l)) : l.length = us.length := by
  induction us generalizing w l with
  | nil =>
    simp only [World.covRow, Prod.mk.injEq, Except.ok.injEq] at h
    rw [← h.2]; rfl
  | cons u us ih =>
    simp only [World.covRow] at h
    split at h
    · simp at h
    · split at h
      · simp at h
      · split at h
        · simp at h
        · rename_i hr
          simp only [Prod.mk.injEq, Except.ok.injEq] at h
          obtain ⟨rfl, rfl⟩ := h
          simp [ih hr]

theorem covRows_length (us done : List (UF F)) {w w' : World F} {rows : List (List F)}
    (h : World.covRows done us w = (w', .ok rows)) : rows.length = us.length ∧
      ∀ k row, rows[k]? = some row → row.length = done.length + k + 1 := by
  induction us generalizing done w rows with
  | nil =>
    simp only [World.covRows, Prod.mk.injEq, Except.ok.injEq] at h
    rw [← h.2]; simp
  | cons u us ih =>
    simp only [World.covRows] at h
    split at h
    · simp at h
    · split at h
      · simp at h
      · rename_i hrow
        split at h
        · simp at h
        · rename_i hr
          simp only [Prod.mk.injEq, Except.ok.injEq] at h
          obtain ⟨rfl, rfl⟩ := h
          obtain ⟨b1, b2⟩ := ih (done ++ [u]) hr
          refine ⟨by simp [b1], fun k r hk => ?_⟩
          cases k with
          | zero =>
            simp only [List.getElem?_cons_zero, Option.some.injEq] at hk
            subst hk
            simpa using covRow_length _ _ hrow
          | succ k =>
            have := b2 k r (by simpa using hk)
            simp only [List.length_append, List.length_singleton] at this
            omega

end matrix

section world
variable {F : Type} [PyOps F] [Rounded F]

/-- What is known of an element of the matrix: it is a sum, over the common variables in some order, for two dictionaries
that represent the derivatives of the two quantities. -/
def IsCovSum (g : NodeId → Grad) (vars : List (VarCell F)) (u1 u2 : UF F) (y : F) : Prop :=
  ∃ (D1 D2 : VarId → Option F) (vs : List VarId), (∀ v, DictOK (D1 v) (g u1.lin v)) ∧ (∀ v, DictOK (D2 v) (g u2.lin v)) ∧
    vs.Nodup ∧ (∀ v, v ∈ vs ↔ (D1 v).isSome ∧ (D2 v).isSome) ∧ (∀ v, v ∈ vs → v < (vars.map VarCell.rabs).length) ∧
    covSum (fun v => ((vars.map VarCell.rabs)[v]?).map RVar.std) D1 D2 vs 0 = .ok y

/-- Elements of a line of the lower triangle. -/
theorem covRow_sums {g : NodeId → Grad} {d1 : Derivs F} {u1 : UF F} (hn : KeysNodup d1)
    (us : List (UF F)) {w w' : World F} (hw : RndInv w g)
    (hd1 : ∀ v, DictOK (d1.lookup v) (g u1.lin v)) (hk : ∀ v ∈ d1.map Prod.fst, v < w.vars.length)
    (hus : ∀ u ∈ us, u.Valid w) {l : List F} (h : World.covRow d1 us w = (w', .ok l)) :
    REv w g w' g ∧ ∀ (k : Nat) (u : UF F) (y : F), us[k]? = some u → l[k]? = some y → IsCovSum g w.vars u1 u y := by
  induction us generalizing w l with
  | nil =>
    simp only [World.covRow, Prod.mk.injEq, Except.ok.injEq] at h
    obtain ⟨rfl, rfl⟩ := h
    exact ⟨REv.refl hw, by simp⟩
  | cons u us ih =>
    obtain ⟨w1, d2, a1, a2, a3, a4, a5⟩ := World.derivatives_rounded hw (hus u (by simp))
    simp only [World.covRow, a1] at h
    split at h
    · simp at h
    · rename_i x hx
      split at h
      · simp at h
      · rename_i w2 l' hr
        simp only [Prod.mk.injEq, Except.ok.injEq] at h
        obtain ⟨rfl, rfl⟩ := h
        have hvars := a2.reads.vars
        obtain ⟨b1, b2⟩ := ih a2.inv (by rw [hvars]; exact hk)
          (fun u' hu' => UF.Valid.grows a2.reads.grows (hus u' (by simp [hu']))) hr
        rw [hvars] at b2
        refine ⟨a2.trans b1, fun k u' y hk' hy => ?_⟩
        cases k with
        | succ k => exact b2 k u' y (by simpa using hk') (by simpa using hy)
        | zero =>
          simp only [List.getElem?_cons_zero, Option.some.injEq] at hk' hy
          subst hk' hy
          rw [covElem_covSum _ _ _ hn, hvars] at hx
          have hstd : (fun v : VarId => (w.vars[v]?).map VarCell.std) =
              fun v : VarId => ((w.vars.map VarCell.rabs)[v]?).map RVar.std := by
            funext v
            rw [List.getElem?_map, Option.map_map]
            rfl
          rw [hstd] at hx
          have hmem : ∀ v, v ∈ (d1.map Prod.fst).filter (fun v => (d2.lookup v).isSome) ↔
              (d1.lookup v).isSome ∧ (d2.lookup v).isSome := by
            intro v
            rw [List.mem_filter]
            refine and_congr ⟨fun hm => ?_, fun hm => ?_⟩ Iff.rfl
            · obtain ⟨p, hp, rfl⟩ := List.mem_map.mp hm
              rw [lookup_of_mem_keys hn hp]; rfl
            · obtain ⟨y, hy⟩ := Option.isSome_iff_exists.mp hm
              exact mem_keys_of_lookup hy
          refine ⟨_, _, _, hd1, a4, hn.filter _, hmem, ?_, hx⟩
          intro v hm
          rw [List.length_map]
          exact hk v (List.mem_filter.mp hm).1

/-- Elements of the lower triangle. -/
theorem covRows_sums {g : NodeId → Grad} (us done : List (UF F)) {w w' : World F} (hw : RndInv w g)
    (hus : ∀ u ∈ us, u.Valid w) (hdone : ∀ u ∈ done, u.Valid w) {rows : List (List F)}
    (h : World.covRows done us w = (w', .ok rows)) :
    ∀ (i j : Nat) (u1 u2 : UF F) (y : F), us[i]? = some u1 → (done ++ us)[j]? = some u2 → entry rows i j = some y →
      IsCovSum g w.vars u1 u2 y := by
  induction us generalizing done w rows with
  | nil => simp
  | cons u us ih =>
    obtain ⟨w1, d1, a1, a2, a3, a4, a5⟩ := World.derivatives_rounded hw (hus u (by simp))
    simp only [World.covRows, a1] at h
    have v1 : ∀ u' ∈ done ++ [u], u'.Valid w1 := by
      intro u' hu'
      rcases List.mem_append.mp hu' with hu' | hu'
      · exact UF.Valid.grows a2.reads.grows (hdone u' hu')
      · simp only [List.mem_singleton] at hu'
        subst hu'
        exact UF.Valid.grows a2.reads.grows (hus u' (by simp))
    have hvars := a2.reads.vars
    split at h
    · simp at h
    · rename_i w2 row hrow
      obtain ⟨b1, b2⟩ := covRow_sums a3 (done ++ [u]) a2.inv a4 (by rw [hvars]; exact a5) v1 hrow
      rw [hvars] at b2
      split at h
      · simp at h
      · rename_i w3 rows' hr
        simp only [Prod.mk.injEq, Except.ok.injEq] at h
        obtain ⟨rfl, rfl⟩ := h
        have c := ih (done ++ [u]) b1.inv
          (fun u' hu' => UF.Valid.grows (a2.trans b1).reads.grows (hus u' (by simp [hu'])))
          (fun u' hu' => UF.Valid.grows b1.reads.grows (v1 u' hu')) hr
        rw [(a2.trans b1).reads.vars] at c
        intro i j u1 u2 y hi hj hy
        cases i with
        | succ i => exact c i j u1 u2 y (by simpa using hi) (by simpa using hj) (by simpa [entry] using hy)
        | zero =>
          simp only [List.getElem?_cons_zero, Option.some.injEq] at hi
          subst hi
          simp only [entry, List.getElem?_cons_zero, Option.bind_some] at hy
          refine b2 j u2 y ?_ hy
          have hl := covRow_length _ _ hrow
          have hlt := (List.getElem?_eq_some_iff.mp hy).1
          rw [hl] at hlt
          rw [List.append_cons, List.getElem?_append_left hlt] at hj
          exact hj

theorem IsCovSum.near {g : NodeId → Grad} {w : World F} (hw : RndInv w g) {u1 u2 : UF F} {y : F}
    (h : IsCovSum g w.vars u1 u2 y) (hf : Rounded.Fin y) :
    |Rounded.val y - (g u1.lin).cov (g u2.lin) (w.vars.map VarCell.rabs)| ≤
      (g u1.lin).covBound (g u2.lin) (w.vars.map VarCell.rabs) := by
  obtain ⟨D1, D2, vs, h1, h2, h3, h4, h5, h6⟩ := h
  exact covSum_near h1 h2 (hw.den.ok _) (hw.den.ok _) vs h3 h4 h5 h6 hf

end world

end Unc
