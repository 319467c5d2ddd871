import Verif.Lemmas.CostWork
import Verif.Props.C69_Recursion
import Verif.Props.C88_ReadOnce

/-
C72: amount of work for reading a result.
-/

set_option autoImplicit false
set_option linter.unusedSectionVars false

namespace Unc

variable {F : Type} [PyMath F]

/-- **C72**: the number of terms handled when reading a result is at most what the text of the program tells: one term per
operand, plus what reading the operand takes. A copy takes the same work as the original. -/
theorem C72_bound [Halts F] (cs : List (Cmd F)) (k : Nat) :
    termsRead cs (.ref k) ≤ ((work cs)[k]?).getD 0 := by
  cases hx : (Arg.ref k : Arg F).evalUnc (after cs).env with
  | none => simp [termsRead, hx]
  | some u =>
    rw [termsRead_eq cs hx]
    exact (CostRel.after cs).le k u (ref_eval (evalUnc_eval hx))

/-- `x = ufloat(1, 1); y = x * x; z = y + 1; z.std_dev; t = z - y`: the standard deviation of `t` takes 4 terms. -/
example : termsRead [.ufloat (1 : ZN) 1 none, .binop .mul (.ref 0) (.ref 0), .binop .add (.ref 1) (.const (.flt 1)), .stdDev (.ref 2),
    .binop .sub (.ref 2) (.ref 1)] (.ref 3) ≤ 4 :=
  C72_bound _ 3

/-- The bound is reached. -/
example : termsRead [.ufloat (1 : ZN) 1 none, .binop .mul (.ref 0) (.ref 0), .binop .add (.ref 1) (.const (.flt 1)), .stdDev (.ref 2),
    .binop .sub (.ref 2) (.ref 1)] (.ref 3) = 4 := by decide +kernel

/-- A deep copy of `z`, with a second one made after reading. -/
example : termsRead [.ufloat (1 : ZN) 1 none, .binop .mul (.ref 0) (.ref 0), .binop .add (.ref 1) (.const (.flt 1)), .deepcopy (.ref 2),
    .stdDev (.ref 2), .pickle [.ref 2]] (.ref 3) ≤ 3 ∧
    termsRead [.ufloat (1 : ZN) 1 none, .binop .mul (.ref 0) (.ref 0), .binop .add (.ref 1) (.const (.flt 1)), .deepcopy (.ref 2),
    .stdDev (.ref 2), .pickle [.ref 2]] (.ref 4) ≤ 0 :=
  ⟨C72_bound _ 3, C72_bound _ 4⟩

/-- **C72** (partial: results that are not variables must be used at most once, see `C72_fails_shared`). If each result, except
variables, is used at most once in calculations and copies, the number of terms handled when reading any result is at most the number of operands of
the calculations: the work is proportional to the length of the calculation. -/
theorem C72_single_use_partial [Halts F] (cs : List (Cmd F))
    (h : ∀ k, timesUsed cs k ≤ 1 ∨ IsVariableResult cs k) (k : Nat) :
    termsRead cs (.ref k) ≤ (cs.map fun c => c.operands.length).sum := by
  refine Nat.le_trans (C72_bound cs k) ?_
  have key : ∀ q p : List (Cmd F), cs = p ++ q → unused (p.flatMap Cmd.uses) (work p) ≤ (p.map fun c => c.operands.length).sum ∧
      ∀ k : Nat, ((work p)[k]?).getD 0 ≤ (p.map fun c => c.operands.length).sum := by
    intro q p
    induction p using List.reverseRecOn generalizing q with
    | nil => intro _; simp [work, unused]
    | append_singleton p c ih =>
      intro hpq
      obtain ⟨h1, h2⟩ := ih (c :: q) (by simpa using hpq)
      rw [work_snoc, List.flatMap_append, List.map_append, List.sum_append]
      simp only [List.flatMap_cons, List.flatMap_nil, List.append_nil, List.map_cons, List.map_nil, List.sum_cons, List.sum_nil,
        Nat.add_zero]
      refine work_bounds _ _ _ c h1 h2 fun j hj => ?_
      rcases h j with hj' | hj'
      · left
        refine Nat.le_trans ?_ hj'
        unfold timesUsed
        rw [hpq]
        simp only [List.flatMap_append, List.flatMap_cons, List.flatMap_nil, List.append_nil, List.count_append]
        omega
      · right
        exact hj'.zero p (c :: q) (by simpa using hpq)
  exact (key [] cs (by simp)).2 k

/-- The sum `x + x + ... + x` with 1000 additions. -/
example : termsRead (longSum (1 : ZN) 1 1000) (.ref 1000) ≤ 2000 := by
  refine Nat.le_trans (C72_single_use_partial _ ?_ _) ?_
  · intro k
    rcases Nat.eq_zero_or_pos k with rfl | hk
    · exact .inr ⟨[], 1, 1, none, _, rfl, rfl⟩
    · left
      simp only [timesUsed, longSum, List.flatMap_cons, List.flatMap_map, Cmd.uses, Cmd.operands, Cmd.copied, List.filterMap_nil,
        List.nil_append, List.append_nil, List.filterMap_cons]
      have : ∀ m : Nat, ((List.range m).flatMap fun i => [i, 0]).count k ≤ if k < m then 1 else 0 := by
        intro m
        induction m with
        | zero => simp
        | succ m ih =>
          rw [List.range_succ, List.flatMap_append, List.count_append]
          simp only [List.flatMap_cons, List.flatMap_nil, List.append_nil, List.count_cons, List.count_nil, beq_iff_eq]
          split at ih <;> split <;> split <;> split <;> omega
      have := this 1000
      split at this <;> omega
  · have : ∀ m : Nat, (((List.range m).map fun i => (Cmd.binop .add (.ref i) (.ref 0) : Cmd ZN)).map fun c => c.operands.length).sum = 2 * m := by
      intro m
      induction m with
      | zero => rfl
      | succ m ih =>
        rw [List.range_succ, List.map_append, List.map_append, List.sum_append, ih]
        rfl
    have := this 1000
    rw [longSum, List.map_cons, List.sum_cons, this]
    exact Nat.le_refl _

/-- **C72**: once a result has been read (derivatives, standard deviation...), reading it again takes no work, whatever happens
in between (even copies). -/
theorem C72_read_again [Halts F] (cs cs' : List (Cmd F)) (k : Nat) (v : F) (c : Cmd F)
    (hc : c ∈ [Cmd.stdDev (.ref k), .s (.ref k), .derivatives (.ref k), .errorComponents (.ref k), .stdScore (.ref k) v])
    (hv : sees cs c ≠ .invalid) : termsRead (cs ++ c :: cs') (.ref k) = 0 := by
  have hm := MShape.after cs
  cases hu : (Arg.ref k : Arg F).evalUnc (after cs).env with
  | some u =>
    obtain ⟨w', d, h1, -⟩ := World.derivatives_shape hm.shape (hm.evalUnc hu)
    have hd : sees cs (.derivatives (.ref k)) = .dict (fun v => d.lookup v) := by
      simp only [sees, Machine.step, Machine.read, hu, h1, mapRes, Except.map]
    obtain ⟨u', d', k1, k2, -⟩ := calculated (c := c) (value := v) (by
      simp only [calculates, List.mem_cons, List.not_mem_nil, or_false] at hc ⊢
      tauto) hd
    obtain ⟨l1, l2⟩ := dict_stays k1 k2 cs'
    rw [show cs ++ [c] ++ cs' = cs ++ c :: cs' by simp] at l1 l2
    rw [termsRead_eq _ l1, cost_dict (MShape.after _).shape.heap l2]
  | none =>
    -- a plain value stays a plain value
    have hp : ∃ p, (after cs).env[k]? = some (some (.plain p)) := by
      simp only [List.mem_cons, List.not_mem_nil, or_false] at hc
      rcases hc with rfl | rfl | rfl | rfl | rfl
      · simp only [sees, Machine.step] at hv
        cases hx : (Arg.ref k : Arg F).eval (after cs).env with
        | none => rw [hx] at hv; exact absurd rfl hv
        | some a =>
          cases a with
          | unc u => rw [Arg.evalUnc, hx] at hu; cases hu
          | plain p => exact ⟨p, ref_eval hx⟩
      all_goals exact absurd (by simp [sees, Machine.step, Machine.read, hu, Machine.invalid]) hv
    obtain ⟨p, hp⟩ := hp
    have hr : ∀ l, (after (cs ++ l)).env[k]? = some (some (.plain p)) := by
      intro l
      induction l using List.reverseRecOn with
      | nil => simpa using hp
      | append_singleton l c ih =>
        rw [← List.append_assoc, after_snoc']
        obtain ⟨l', hl⟩ := (after (cs ++ l)).step_env c
        rw [hl, List.getElem?_append_left (List.getElem?_eq_some_iff.mp ih).1, ih]
    simp [termsRead, Arg.evalUnc, Arg.eval, hr]

/-- `y.std_dev` is read, then `y` is used, copied, and read again. -/
example : termsRead ([.ufloat (1 : ZN) 1 none, .binop .mul (.ref 0) (.ref 0)] ++ .stdDev (.ref 1) ::
    [.binop .add (.ref 1) (.ref 1), .deepcopy (.ref 1), .derivatives (.ref 2)]) (.ref 1) = 0 :=
  C72_read_again _ _ 1 0 _ (by simp) (by intro h; cases h)

/-- `x = ufloat(n, s)`, then `x = x + x`, `k` times. -/
def doublings (n s : F) (k : Nat) : List (Cmd F) :=
  .ufloat n s none :: (List.range k).map fun i => .binop .add (.ref i) (.ref i)

/-- The objects that the doublings build. -/
structure IsDouble (m : Machine F) (k : Nat) : Prop where
  len : m.w.nodes.length = k + 1
  env : m.env.length = k + 1
  first : ∃ d, m.w.nodes[0]? = some (.dict d)
  nodes : ∀ j, j < k → m.w.nodes[j + 1]? = some (.terms [.pair 1 j, .pair 1 j])
  vals : ∀ j, j ≤ k → ∃ u, m.env[j]? = some (some (.unc u)) ∧ u.lin = j

theorem IsDouble.ofDoublings [Halts F] (n s : F) (hs : specBadStd s = false) (k : Nat) : IsDouble (after (doublings n s k)) k := by
  induction k with
  | zero =>
    have : after (doublings n s 0) = ((after []).step (.ufloat n s none)).1 := rfl
    rw [this]
    have hb : (PyFloat.ltb s 0 && !PyFloat.isInf s) = false := hs
    simp only [Machine.step, World.ufloat, hb, Bool.false_eq_true, if_false, World.alloc]
    refine ⟨rfl, rfl, ⟨_, rfl⟩, by intro j hj; omega, ?_⟩
    intro j hj
    obtain rfl : j = 0 := by omega
    exact ⟨_, rfl, rfl⟩
  | succ k ih =>
    have e : doublings n s (k + 1) = doublings n s k ++ [.binop .add (.ref k) (.ref k)] := by
      simp [doublings, List.range_succ]
    have hm := MShape.after (doublings n s k)
    rw [e, after_snoc']
    obtain ⟨u, hu1, hu2⟩ := ih.vals k (Nat.le_refl k)
    obtain ⟨W, z, hadd⟩ := longSum_add hm.shape hm.ops u u
    have eu : (Arg.ref k : Arg F).eval (after (doublings n s k)).env = some (.unc u) := by simp [Arg.eval, hu1]
    simp only [Machine.step, eu, Val.isUnc, Bool.or_self, if_true, hadd, Machine.bind]
    refine ⟨by simp [ih.len], by simp [ih.env], ?_, ?_, ?_⟩
    · obtain ⟨d, hd⟩ := ih.first
      refine ⟨d, ?_⟩
      simp only []
      rw [List.getElem?_append_left (by rw [ih.len]; omega)]
      exact hd
    · intro j hj
      by_cases hjk : j < k
      · simp only []
        rw [List.getElem?_append_left (by rw [ih.len]; omega)]
        exact ih.nodes j hjk
      · obtain rfl : j = k := by omega
        simp only []
        rw [List.getElem?_append_right (by rw [ih.len])]
        simp [ih.len, hu2]
    · intro j hj
      by_cases hjk : j ≤ k
      · simp only []
        rw [List.getElem?_append_left (by rw [ih.env]; omega)]
        exact ih.vals j hjk
      · obtain rfl : j = k + 1 := by omega
        refine ⟨{ nom := z, lin := (after (doublings n s k)).w.nodes.length, var := none }, ?_, ih.len⟩
        simp only []
        rw [List.getElem?_append_right (by rw [ih.env])]
        simp [ih.env]

/-- Failure of **C72** when results are used many times: after `k` doublings, `2 ^ (k + 1) - 2` terms are handled. -/
theorem C72_fails_shared [Halts F] (n s : F) (hs : specBadStd s = false) (k : Nat) :
    termsRead (doublings n s k) (.ref k) = 2 ^ (k + 1) - 2 := by
  have h := IsDouble.ofDoublings n s hs k
  obtain ⟨u, h1, h2⟩ := h.vals k (Nat.le_refl k)
  have hu : (Arg.ref k : Arg F).evalUnc (after (doublings n s k)).env = some u := by simp [Arg.evalUnc, Arg.eval, h1]
  have hw := (MShape.after (doublings n s k)).shape.heap
  rw [termsRead_eq _ hu, h2]
  have key : ∀ j, j ≤ k → cost (after (doublings n s k)).w.nodes j + 2 = 2 ^ (j + 1) := by
    intro j
    induction j with
    | zero =>
      intro _
      obtain ⟨d, hd⟩ := h.first
      rw [cost_dict hw hd]
      rfl
    | succ j ih =>
      intro hj
      rw [cost_terms hw (h.nodes j (by omega))]
      have := ih (by omega)
      simp only [itemsCost]
      simp only [cost] at this
      rw [pow_succ]
      omega
  have := key k (Nat.le_refl k)
  omega

/-- With floats: 40 doublings take more than 2 * 10 ^ 12 terms. -/
example : termsRead (doublings (1 : ZN) 1 40) (.ref 40) = 2199023255550 := C72_fails_shared 1 1 (by decide) 40

/-- The same, where the standard deviation is read after each doubling. -/
def readDoublings (n s : F) (k : Nat) : List (Cmd F) :=
  .ufloat n s none :: (List.range k).flatMap fun i => [.binop .add (.ref i) (.ref i), .stdDev (.ref (i + 1))]

/-- Reading intermediate results avoids the exponential work: each reading handles at most two terms. -/
theorem C72_read_intermediate [Halts F] (n s : F) (k : Nat) :
    termsRead (readDoublings n s k ++ [.binop .add (.ref k) (.ref k)]) (.ref (k + 1)) ≤ 2 := by
  have hw : work (readDoublings n s k) = List.replicate (k + 1) 0 := by
    induction k with
    | zero => rfl
    | succ k ih =>
      have e : readDoublings n s (k + 1) = readDoublings n s k ++ [.binop .add (.ref k) (.ref k), .stdDev (.ref (k + 1))] := by
        simp [readDoublings, List.range_succ]
      rw [e]
      have e2 : ∀ a b : Cmd F, work (readDoublings n s k ++ [a, b]) = workStep (workStep (work (readDoublings n s k)) a) b := by
        intro a b
        simp [work]
      rw [e2, ih]
      · simp only [workStep, markRead, Cmd.operands]
        rw [List.replicate_succ' (n := k + 1), List.set_append_right _ _ (by simp)]
        simp
  refine Nat.le_trans (C72_bound _ (k + 1)) ?_
  rw [work_snoc, hw]
  simp [workStep, Cmd.operands, operandWork, List.getElem?_append_right]

/-- With floats, the same 40 doublings. -/
example : termsRead (readDoublings (1 : ZN) 1 40 ++ [.binop .add (.ref 40) (.ref 40)]) (.ref 41) ≤ 2 := C72_read_intermediate 1 1 40

end Unc
