import Verif.Lemmas.CostMachine
import Mathlib.Algebra.BigOperators.Group.Finset.Basic
import Mathlib.Algebra.Order.BigOperators.Group.Finset

/-
Bounds on the work for reading results.
-/

set_option autoImplicit false
set_option linter.unusedSectionVars false

namespace Unc

variable {F : Type} [PyMath F]

theorem termsRead_eq [Halts F] (cs : List (Cmd F)) {x : Arg F} {u : UF F} (hx : x.evalUnc (after cs).env = some u) :
    termsRead cs x = cost (after cs).w.nodes u.lin := by
  have hm := MShape.after cs
  have hu := hm.evalUnc hx
  have hlt := hu.1
  have hg : (after cs).w.nodes[u.lin]? = some (after cs).w.nodes[u.lin] := List.getElem?_eq_getElem hu.1
  simp only [termsRead, hx]
  cases hc : (after cs).w.nodes[u.lin] with
  | dict d =>
    rw [hc] at hg
    simp only [hg]
    exact (cost_dict hm.shape.heap hg).symm
  | terms ts =>
    rw [hc] at hg
    have e := costs_spec _ hm.shape.heap _ _ hg
    simp only [hg]
    rw [loopTerms_eq (costs (after cs).w.nodes) _ _ _ _ ts hg hm.shape.heap
      (fun j lc _ hj => costs_spec _ hm.shape.heap j lc hj) (by simp [fuelFor, e, nodeCost]), cost_terms hm.shape.heap hg]

theorem CostRel.after [Halts F] (cs : List (Cmd F)) : CostRel (after cs) (work cs) := by
  induction cs using List.reverseRecOn with
  | nil => exact ⟨rfl, by intro k u hk; simp [Unc.after, Machine.run, Machine.init] at hk⟩
  | append_singleton cs c ih =>
    rw [after_snoc']
    have e : work (cs ++ [c]) = workStep (work cs) c := by simp [work]
    rw [e]
    exact ih.step (MShape.after cs) c

theorem ref_eval {env : List (Option (Val F))} {k : Nat} {v : Val F} (h : (Arg.ref k : Arg F).eval env = some v) :
    env[k]? = some (some v) := by
  simp only [Arg.eval] at h
  cases hk : env[k]? with
  | none => rw [hk] at h; cases h
  | some o => rw [hk] at h; simp at h; rw [h]

/-- The work for the values of a machine. -/
def actualWork (m : Machine F) : List Nat :=
  m.env.map fun
    | some (.unc u) => cost m.w.nodes u.lin
    | _ => 0

theorem CostRel.actual (m : Machine F) : CostRel m (actualWork m) := by
  refine ⟨by simp [actualWork], fun k u hk => ?_⟩
  simp [actualWork, hk]

/-! ### Results used once -/

/-- Total work for results that have not been used. -/
def unused (U : List Nat) (W : List Nat) : Nat :=
  ∑ k ∈ Finset.range W.length, if k ∈ U then 0 else (W[k]?).getD 0

theorem unused_mono {U V W W' : List Nat} (hl : W'.length = W.length) (hU : ∀ k ∈ U, k ∈ V)
    (hW : ∀ k : Nat, (W'[k]?).getD 0 ≤ (W[k]?).getD 0) : unused V W' ≤ unused U W := by
  unfold unused
  rw [hl]
  refine Finset.sum_le_sum fun k _ => ?_
  by_cases h : k ∈ V
  · rw [if_pos h]; omega
  · rw [if_neg h, if_neg (fun h' => h (hU k h'))]
    exact hW k

theorem unused_use (U W : List Nat) (a : Nat) (h : a ∉ U ∨ (W[a]?).getD 0 = 0) :
    unused (U ++ [a]) W + (W[a]?).getD 0 ≤ unused U W := by
  by_cases hz : (W[a]?).getD 0 = 0
  · rw [hz]
    exact unused_mono rfl (fun k hk => by simp [hk]) (fun k => Nat.le_refl _)
  · have ha : a ∉ U := h.resolve_right hz
    have hlt : a < W.length := by
      by_contra hn
      rw [List.getElem?_eq_none (by omega)] at hz
      exact hz rfl
    unfold unused
    rw [← Finset.add_sum_erase _ _ (Finset.mem_range.2 hlt), ← Finset.add_sum_erase (Finset.range W.length)
      (fun k => if k ∈ U then 0 else (W[k]?).getD 0) (Finset.mem_range.2 hlt)]
    simp only [List.mem_append, List.mem_singleton, or_true, if_true, if_neg ha]
    have : ∑ k ∈ (Finset.range W.length).erase a, (if k ∈ U ∨ k = a then 0 else (W[k]?).getD 0) ≤
        ∑ k ∈ (Finset.range W.length).erase a, if k ∈ U then 0 else (W[k]?).getD 0 := by
      refine Finset.sum_le_sum fun k hk => ?_
      have : k ≠ a := (Finset.mem_erase.1 hk).1
      simp [this]
    omega

theorem unused_uses (U W A : List Nat) (h : ∀ j ∈ A, (U ++ A).count j ≤ 1 ∨ (W[j]?).getD 0 = 0) :
    unused (U ++ A) W + (A.map fun j => (W[j]?).getD 0).sum ≤ unused U W := by
  induction A generalizing U with
  | nil => simp
  | cons a A ih =>
    have h1 := ih (U ++ [a]) (by
      intro j hj
      simpa using h j (by simp [hj]))
    have h2 := unused_use U W a (by
      rcases h a (by simp) with h | h
      · left
        intro ha
        have : 1 ≤ U.count a := List.one_le_count_iff.2 ha
        simp at h
        omega
      · exact .inr h)
    simp only [List.append_assoc, List.singleton_append] at h1
    simp only [List.map_cons, List.sum_cons]
    omega

theorem unused_push (U W : List Nat) (n : Nat) : unused U (W ++ [n]) ≤ unused U W + n := by
  unfold unused
  rw [List.length_append, List.length_singleton, Finset.sum_range_succ]
  have : ∑ k ∈ Finset.range W.length, (if k ∈ U then 0 else ((W ++ [n])[k]?).getD 0) =
      ∑ k ∈ Finset.range W.length, if k ∈ U then 0 else (W[k]?).getD 0 := by
    refine Finset.sum_congr rfl fun k hk => ?_
    rw [List.getElem?_append_left (Finset.mem_range.1 hk)]
  rw [this]
  have : (if W.length ∈ U then 0 else ((W ++ [n])[W.length]?).getD 0) ≤ n := by
    split <;> simp
  omega

theorem le_push {W : List Nat} {n T : Nat} (h : ∀ k : Nat, (W[k]?).getD 0 ≤ T) (hn : n ≤ T) (k : Nat) :
    ((W ++ [n])[k]?).getD 0 ≤ T := by
  rcases Nat.lt_trichotomy k W.length with hl | rfl | hl
  · rw [List.getElem?_append_left hl]; exact h k
  · simpa using hn
  · rw [List.getElem?_eq_none (by simp; omega)]; simp

theorem markRead_length (W : List Nat) (x : Arg F) : (markRead W x).length = W.length := by
  cases x <;> simp [markRead]

theorem markRead_le (W : List Nat) (x : Arg F) (k : Nat) : ((markRead W x)[k]?).getD 0 ≤ (W[k]?).getD 0 := by
  cases x with
  | const c => exact Nat.le_refl _
  | ref j =>
    simp only [markRead]
    by_cases h : j = k
    · subst h
      by_cases hl : j < W.length
      · rw [List.getElem?_set_self hl]; simp
      · rw [List.getElem?_eq_none (by simp; omega)]; simp
    · rw [List.getElem?_set_ne h]

theorem operandsWork_eq (W : List Nat) (xs : List (Arg F)) :
    (xs.map (operandWork W)).sum =
      (xs.filterMap fun | Arg.ref k => some k | .const _ => none).length +
      ((xs.filterMap fun | Arg.ref k => some k | .const _ => none).map fun j => (W[j]?).getD 0).sum := by
  induction xs with
  | nil => rfl
  | cons x xs ih =>
    cases x with
    | const c => simp only [List.map_cons, List.sum_cons, operandWork, List.filterMap_cons, ih]; omega
    | ref k =>
      simp only [List.map_cons, List.sum_cons, operandWork, List.filterMap_cons, ih, List.length_cons]
      omega

theorem copiesWork_eq (W : List Nat) (xs : List (Arg F)) :
    (xs.map (copyWork W)).sum =
      ((xs.filterMap fun | Arg.ref k => some k | .const _ => none).map fun j => (W[j]?).getD 0).sum := by
  induction xs with
  | nil => rfl
  | cons x xs ih =>
    cases x with
    | const c => simp only [List.map_cons, List.sum_cons, copyWork, List.filterMap_cons, ih]; omega
    | ref k => simp only [List.map_cons, List.sum_cons, copyWork, List.filterMap_cons, ih]

theorem unused_append (U W l : List Nat) : unused U (W ++ l) ≤ unused U W + l.sum := by
  induction l using List.reverseRecOn with
  | nil => simp
  | append_singleton l n ih =>
    rw [← List.append_assoc]
    have := unused_push U (W ++ l) n
    simp only [List.sum_append, List.sum_cons, List.sum_nil]
    omega

theorem le_append {W l : List Nat} {T : Nat} (h : ∀ k : Nat, (W[k]?).getD 0 ≤ T) (hl : ∀ n ∈ l, n ≤ T) (k : Nat) :
    ((W ++ l)[k]?).getD 0 ≤ T := by
  induction l using List.reverseRecOn generalizing k with
  | nil => simpa using h k
  | append_singleton l n ih =>
    rw [← List.append_assoc]
    exact le_push (ih fun n hn => hl n (by simp [hn])) (hl n (by simp)) k

/-- One more command, for the bounds. -/
theorem work_bounds (W U : List Nat) (T : Nat) (c : Cmd F) (h1 : unused U W ≤ T) (h2 : ∀ k : Nat, (W[k]?).getD 0 ≤ T)
    (h : ∀ j ∈ c.uses, (U ++ c.uses).count j ≤ 1 ∨ (W[j]?).getD 0 = 0) :
    unused (U ++ c.uses) (workStep W c) ≤ T + c.operands.length ∧
    ∀ k : Nat, ((workStep W c)[k]?).getD 0 ≤ T + c.operands.length := by
  have hu := unused_uses U W c.uses h
  have hw := operandsWork_eq W c.operands
  have hx : c.copied = [] → unused (U ++ c.uses) (W ++ [(c.operands.map (operandWork W)).sum]) ≤ T + c.operands.length ∧
      ∀ k : Nat, ((W ++ [(c.operands.map (operandWork W)).sum])[k]?).getD 0 ≤ T + c.operands.length := by
    intro hc
    have hlen : c.uses.length ≤ c.operands.length := by
      have := List.length_filterMap_le (fun | Arg.ref k => some k | .const _ => none) (c.operands ++ c.copied)
      rw [hc, List.append_nil] at this
      rw [Cmd.uses, hc, List.append_nil]
      exact this
    have hw' : (c.operands.map (operandWork W)).sum = c.uses.length + (c.uses.map fun j => (W[j]?).getD 0).sum := by
      rw [hw, Cmd.uses, hc, List.append_nil]
      rfl
    refine ⟨?_, le_push (fun k => by have := h2 k; omega) (by omega)⟩
    have := unused_push (U ++ c.uses) W (c.operands.map (operandWork W)).sum
    omega
  have hcopy : c.operands = [] → unused (U ++ c.uses) (W ++ c.copied.map (copyWork W)) ≤ T + 0 ∧
      ∀ k : Nat, ((W ++ c.copied.map (copyWork W))[k]?).getD 0 ≤ T + 0 := by
    intro hc
    have hw' : (c.copied.map (copyWork W)).sum = (c.uses.map fun j => (W[j]?).getD 0).sum := by
      rw [Cmd.uses, hc, List.nil_append, copiesWork_eq]
      rfl
    have := unused_append (U ++ c.uses) W (c.copied.map (copyWork W))
    refine ⟨by omega, fun k => ?_⟩
    refine le_append (fun k => h2 k) (fun n hn => ?_) k
    obtain ⟨x, -, rfl⟩ := List.mem_map.mp hn
    cases x with
    | ref k => exact h2 k
    | const v => exact Nat.zero_le _
  have hmark : ∀ x : Arg F, unused (U ++ []) (markRead W x) ≤ T + 0 ∧ ∀ k : Nat, ((markRead W x)[k]?).getD 0 ≤ T + 0 := by
    intro x
    refine ⟨Nat.le_trans (unused_mono (markRead_length W x) (fun k hk => by simp [hk]) (markRead_le W x)) h1, fun k => ?_⟩
    exact Nat.le_trans (markRead_le W x k) (h2 k)
  have hzero : unused (U ++ []) (W ++ [0]) ≤ T + 0 ∧ ∀ k : Nat, ((W ++ [0])[k]?).getD 0 ≤ T + 0 := by
    refine ⟨?_, le_push (fun k => h2 k) (by omega)⟩
    have := unused_push (U ++ []) W 0
    simp at this ⊢
    omega
  have hsame : unused (U ++ []) W ≤ T + 0 ∧ ∀ k : Nat, (W[k]?).getD 0 ≤ T + 0 := by simpa using ⟨h1, h2⟩
  cases c with
  | ufloat n s tag => exact hzero
  | affine n items => exact hzero
  | lcst f args kwargs => exact hzero
  | «variable» x v => exact hzero
  | call f args kwargs => exact hx rfl
  | unop op x => exact hx rfl
  | binop op x y => exact hx rfl
  | ldexp x i => exact hx rfl
  | modf x =>
    have e : workStep W (.modf x) = (W ++ [((Cmd.modf x).operands.map (operandWork W)).sum]) ++ [0] := by simp [workStep]
    rw [e]
    refine ⟨Nat.le_trans (unused_push _ _ 0) (by simpa using (hx rfl).1), le_push (hx rfl).2 (by omega)⟩
  | stdDev x => exact hmark x
  | s x => exact hmark x
  | derivatives x => exact hmark x
  | errorComponents x => exact hmark x
  | stdScore x v => exact hmark x
  | wrap df => exact hsame
  | copy x => exact hcopy rfl
  | deepcopy x => exact hcopy rfl
  | pickle xs => exact hcopy rfl
  | setStd x s => exact hsame
  | nominal x => exact hsame
  | covarianceMatrix xs => exact hsame
  | compare op x y => exact hsame
  | toBool x => exact hsame
  | tag x => exact hsame

theorem work_snoc (cs : List (Cmd F)) (c : Cmd F) : work (cs ++ [c]) = workStep (work cs) c := by simp [work]

/-- A result that takes no work never does. -/
theorem workStep_zero (W : List Nat) (c : Cmd F) (k : Nat) (hk : k < W.length) :
    k < (workStep W c).length ∧ ((workStep W c)[k]?).getD 0 ≤ (W[k]?).getD 0 := by
  have hp : ∀ l : List Nat, k < (W ++ l).length ∧ ((W ++ l)[k]?).getD 0 ≤ (W[k]?).getD 0 := by
    intro l
    refine ⟨by simp; omega, ?_⟩
    rw [List.getElem?_append_left hk]
  have hm : ∀ x : Arg F, k < (markRead W x).length ∧ ((markRead W x)[k]?).getD 0 ≤ (W[k]?).getD 0 :=
    fun x => ⟨by rw [markRead_length]; exact hk, markRead_le W x k⟩
  cases c <;> first | exact hp _ | exact hm _ | exact ⟨hk, Nat.le_refl _⟩

theorem IsVariableResult.zero {cs : List (Cmd F)} {k : Nat} (h : IsVariableResult cs k) (p q : List (Cmd F)) (hpq : cs = p ++ q) :
    ((work p)[k]?).getD 0 = 0 := by
  obtain ⟨cs₁, n, s, tag, cs₂, rfl, hk⟩ := h
  -- either the variable is created in `p` or later
  have key : ∀ r : List (Cmd F), k < (work (cs₁ ++ [.ufloat n s tag] ++ r)).length ∧
      ((work (cs₁ ++ [.ufloat n s tag] ++ r))[k]?).getD 0 = 0 := by
    intro r
    induction r using List.reverseRecOn with
    | nil =>
      rw [List.append_nil, work_snoc]
      simp [workStep, ← hk]
    | append_singleton r c ih =>
      rw [← List.append_assoc, work_snoc]
      have := workStep_zero _ c k ih.1
      exact ⟨this.1, by omega⟩
  have len : ∀ r r' : List (Cmd F), (work r).length ≤ (work (r ++ r')).length := by
    intro r r'
    induction r' using List.reverseRecOn with
    | nil => simp
    | append_singleton r' c ih =>
      rw [← List.append_assoc, work_snoc]
      refine Nat.le_trans ih ?_
      cases c <;> simp [workStep, markRead_length]
  have hpq' : (cs₁ ++ [.ufloat n s tag]) ++ cs₂ = p ++ q := by simpa using hpq
  rcases List.append_eq_append_iff.1 hpq' with ⟨r, rfl, -⟩ | ⟨r, h1, -⟩
  · exact (key r).2
  · -- `p` is a prefix of `cs₁ ++ [ufloat]`
    rcases List.eq_nil_or_concat r with rfl | ⟨r', c, rfl⟩
    · rw [List.append_nil] at h1
      rw [← h1]
      simpa using (key []).2
    · have : cs₁ = p ++ r' := by
        have h1' : cs₁ ++ [Cmd.ufloat n s tag] = (p ++ r') ++ [c] := by simpa using h1
        exact (List.append_inj' h1' rfl).1
      have hl := len p r'
      rw [← this, hk] at hl
      rw [List.getElem?_eq_none hl]
      rfl

end Unc
