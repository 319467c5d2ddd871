import Verif.Spec.Cost
import Verif.Lemmas.HSteps
import Verif.Lemmas.Sees

/-
Number of terms handled by readings.
-/

set_option autoImplicit false
set_option linter.unusedSectionVars false

namespace Unc

section floats
variable {F : Type} [PyFloat F]

/-- Terms that reading object `i` handles. -/
def cost (h : Heap F) (i : NodeId) : Nat := ((costs h)[i]?).getD 0

/-- The loop handles exactly the predicted number of terms. -/
theorem loopTerms_eq (cs : List Nat) (fuel : Nat) (h : Heap F) (i : NodeId)
    (d : Derivs F) (ts : List (Item F)) (hi : h[i]? = some (.terms ts)) (hw : HeapWF h)
    (hcs : ∀ j lc, j < i → h[j]? = some lc → cs[j]? = some (nodeCost cs lc))
    (hfuel : itemsCost cs ts < fuel) : loopTerms fuel h i d = itemsCost cs ts := by
  induction fuel generalizing h d ts with
  | zero => omega
  | succ fuel ih =>
    have hlen : i < h.length := by rw [List.getElem?_eq_some_iff] at hi; exact hi.1
    have hts := hw i ts hi
    cases ts with
    | nil => simp [loopTerms, expandStep, hi, itemsCost]
    | cons t ts =>
      obtain ⟨c, j, rfl, hj⟩ := hts t (by simp)
      have hts' : ItemsBelow i ts := fun t ht => hts t (by simp [ht])
      have hjlen : j < h.length := by omega
      have hne : i ≠ j := by omega
      have hget : (h.set i (LC.terms ts))[j]? = some h[j] := by
        rw [List.getElem?_set_ne hne, List.getElem?_eq_getElem hjlen]
      have hgetj : h[j]? = some h[j] := List.getElem?_eq_getElem hjlen
      have hcsj := hcs j _ hj hgetj
      have hwf : ∀ ts', ItemsBelow i ts' → HeapWF (h.set i (LC.terms ts')) := by
        intro ts' hb k us hk
        by_cases hki : i = k
        · subst hki
          rw [List.getElem?_set_self hlen] at hk
          cases hk; exact hb
        · rw [List.getElem?_set_ne hki] at hk
          exact hw k us hk
      have hcs' : ∀ ts' : List (Item F), ∀ j lc, j < i →
          (h.set i (LC.terms ts'))[j]? = some lc → cs[j]? = some (nodeCost cs lc) := by
        intro ts' k lc hk hk'
        rw [List.getElem?_set_ne (by omega)] at hk'
        exact hcs k lc hk hk'
      simp only [itemsCost] at hfuel ⊢
      cases hj' : h[j] with
      | dict dj =>
        have := ih (h.set i (LC.terms ts)) (addScaled c dj d) ts
          (List.getElem?_set_self hlen) (hwf ts hts') (hcs' ts) (by omega)
        rw [hj'] at hcsj
        simp only [loopTerms, expandStep, hi, hget, hj', this, hcsj, nodeCost, Option.getD_some]
      | terms tj =>
        rw [hj'] at hgetj hcsj
        have hb := hw j tj hgetj
        have hb' : ItemsBelow i (tj.map (scaleItem c) ++ ts) :=
          itemsBelow_append (itemsBelow_scale hj.le hb) hts'
        simp only [nodeCost] at hcsj
        rw [hcsj] at hfuel
        simp only [Option.getD_some] at hfuel
        have := ih (h.set i (LC.terms (tj.map (scaleItem c) ++ ts))) d _
          (List.getElem?_set_self hlen) (hwf _ hb') (hcs' _) (by
            rw [itemsCost_append, itemsCost_scale]
            omega)
        simp only [loopTerms, expandStep, hi, hget, hj', pushScaled_reverse c j tj ts hb,
          List.set_set, this, itemsCost_append, itemsCost_scale, hcsj, Option.getD_some]
        omega

theorem cost_dict {h : Heap F} (hw : HeapWF h) {i : NodeId} {d : Derivs F} (hi : h[i]? = some (.dict d)) : cost h i = 0 := by
  simp [cost, costs_spec h hw i _ hi, nodeCost]

theorem cost_terms {h : Heap F} (hw : HeapWF h) {i : NodeId} {ts : List (Item F)} (hi : h[i]? = some (.terms ts)) :
    cost h i = itemsCost (costs h) ts := by
  simp [cost, costs_spec h hw i _ hi, nodeCost]

theorem cost_append_lt {h : Heap F} {lc : LC F} {i : NodeId} (hi : i < h.length) : cost (h ++ [lc]) i = cost h i := by
  rw [cost, costs_append, List.getElem?_append_left (by rw [length_costs]; exact hi)]
  rfl

theorem cost_append_self {h : Heap F} {lc : LC F} : cost (h ++ [lc]) h.length = nodeCost (costs h) lc := by
  rw [cost, costs_append, List.getElem?_append_right (by rw [length_costs])]
  simp [length_costs]

theorem itemsCost_le {cs cs' : List Nat} {i : NodeId} {ts : List (Item F)} (hts : ItemsBelow i ts)
    (hcs : ∀ j, j < i → (cs[j]?).getD 0 ≤ (cs'[j]?).getD 0) : itemsCost cs ts ≤ itemsCost cs' ts := by
  induction ts with
  | nil => exact Nat.le_refl _
  | cons t ts ih =>
    obtain ⟨f, n, rfl, hn⟩ := hts t (by simp)
    have hts' : ItemsBelow i ts := fun t ht => hts t (by simp [ht])
    have := ih hts'
    have := hcs n hn
    simp only [itemsCost]
    omega

theorem HeapWF.setDict {h : Heap F} (hw : HeapWF h) (i : NodeId) (d : Derivs F) : HeapWF (h.set i (.dict d)) := by
  intro k ts hk
  by_cases hki : i = k
  · subst hki
    rcases Nat.lt_or_ge i h.length with hl | hl
    · rw [List.getElem?_set_self hl] at hk
      cases hk
    · rw [List.getElem?_eq_none (by simpa using hl)] at hk
      cases hk
  · rw [List.getElem?_set_ne hki] at hk
    exact hw k ts hk

/-- Reading an object does not make other readings longer. -/
theorem cost_setDict {h : Heap F} (hw : HeapWF h) (i : NodeId) (d : Derivs F) (j : NodeId) :
    cost (h.set i (.dict d)) j ≤ cost h j := by
  induction j using Nat.strongRecOn with
  | ind j ih =>
    have hw' := hw.setDict i d
    rcases Nat.lt_or_ge j h.length with hl | hl
    · by_cases hij : i = j
      · subst hij
        rw [cost_dict hw' (List.getElem?_set_self hl)]
        omega
      · have hg : h[j]? = some h[j] := List.getElem?_eq_getElem hl
        cases hc : h[j] with
        | dict dj =>
          rw [cost_dict hw' (d := dj) (by rw [List.getElem?_set_ne hij, hg, hc])]
          omega
        | terms ts =>
          rw [hc] at hg
          rw [cost_terms hw' (by rw [List.getElem?_set_ne hij, hg]), cost_terms hw hg]
          exact itemsCost_le (hw j ts hg) fun k hk => ih k hk
    · simp [cost, List.getElem?_eq_none (show (costs (h.set i (.dict d))).length ≤ j by rw [length_costs]; simpa using hl)]

/-- Reading an object makes the next readings of it free. -/
theorem cost_setDict_self {h : Heap F} (hw : HeapWF h) (i : NodeId) (d : Derivs F) : cost (h.set i (.dict d)) i = 0 := by
  rcases Nat.lt_or_ge i h.length with hl | hl
  · exact cost_dict (hw.setDict i d) (List.getElem?_set_self hl)
  · simp [cost, List.getElem?_eq_none (show (costs (h.set i (.dict d))).length ≤ i by rw [length_costs]; simpa using hl)]

theorem HSteps.cost {h h' : Heap F} (hs : HSteps h h') (hw : HeapWF h) :
    HeapWF h' ∧ h.length ≤ h'.length ∧ ∀ j, j < h.length → cost h' j ≤ cost h j := by
  induction hs with
  | refl => exact ⟨hw, Nat.le_refl _, fun j _ => Nat.le_refl _⟩
  | read i hs ih =>
    obtain ⟨h1, h2, h3⟩ := ih
    rename_i h'
    rcases Nat.lt_or_ge i h'.length with hl | hl
    · obtain ⟨d, hd⟩ := readDerivs_terminates h' h1 i hl
      rw [hd]
      refine ⟨h1.setDict i d, by simpa using h2, fun j hj => ?_⟩
      exact Nat.le_trans (cost_setDict h1 i d j) (h3 j hj)
    · have : readDerivs h' i = (h', .error .attributeError) := by
        simp [readDerivs, List.getElem?_eq_none hl]
      rw [this]
      exact ⟨h1, h2, h3⟩
  | alloc lc hs ht hd ih =>
    obtain ⟨h1, h2, h3⟩ := ih
    rename_i h'
    refine ⟨?_, by simp; omega, fun j hj => ?_⟩
    · intro i ts hi
      rcases Nat.lt_or_ge i h'.length with hl | hl
      · rw [List.getElem?_append_left hl] at hi
        exact h1 i ts hi
      · have hl' := (List.getElem?_eq_some_iff.1 hi).1
        obtain rfl : i = h'.length := by simp at hl'; omega
        simp at hi
        exact ht ts hi
    · rw [cost_append_lt (by omega)]
      exact h3 j hj

/-- Work for the terms of the arguments of a call. -/
def valsCost (h : Heap F) : List (Val F) → Nat
  | [] => 0
  | .plain _ :: l => valsCost h l
  | .unc u :: l => 1 + cost h u.lin + valsCost h l

theorem posTerms_cost (h : Heap F) (av : List (PyVal F)) (kv : KwArgs F) (args : List (Val F)) (pos : Nat) (wf wf' : Wrapped F)
    (acc ts : List (Item F)) (he : posTerms av kv pos args wf acc = (wf', .ok ts)) :
    itemsCost (costs h) ts = itemsCost (costs h) acc + valsCost h args := by
  induction args generalizing pos wf acc with
  | nil => cases he; rfl
  | cons a args ih =>
    cases a with
    | plain v => exact ih _ _ _ he
    | unc u =>
      simp only [posTerms] at he
      split at he
      · cases he
      · split at he
        · cases he
        · rw [ih _ _ _ he]
          simp only [itemsCost, valsCost, cost]
          omega

theorem kwTerms_cost (h : Heap F) (av : List (PyVal F)) (kv : KwArgs F) (args : List (String × Val F)) (wf wf' : Wrapped F)
    (acc ts : List (Item F)) (he : kwTerms av kv args wf acc = (wf', .ok ts)) :
    itemsCost (costs h) ts = itemsCost (costs h) acc + valsCost h (args.map Prod.snd) := by
  induction args generalizing wf acc with
  | nil => cases he; rfl
  | cons a args ih =>
    obtain ⟨name, a⟩ := a
    cases a with
    | plain v => exact ih _ _ he
    | unc u =>
      simp only [kwTerms] at he
      split at he
      · cases he
      · rw [ih _ _ he]
        simp only [itemsCost, valsCost, cost, List.map_cons]
        omega

theorem valsCost_append (h : Heap F) (a b : List (Val F)) : valsCost h (a ++ b) = valsCost h a + valsCost h b := by
  induction a with
  | nil => simp [valsCost]
  | cons x a ih => cases x <;> simp [valsCost, ih] <;> omega

theorem callTerms_cost (h : Heap F) {wf wf' : Wrapped F} {args : List (Val F)} {kwargs : List (String × Val F)} {x : F}
    {ts : List (Item F)} (he : callTerms wf args kwargs = (wf', .ok (.inr (x, ts)))) :
    itemsCost (costs h) ts = valsCost h (args ++ kwargs.map Prod.snd) := by
  simp only [callTerms] at he
  split at he
  · split at he <;> simp at he
  · split at he
    · simp at he
    · split at he
      · simp at he
      · split at he
        · cases he
        · rename_i h1
          split at he
          · cases he
          · rename_i h2
            split at he
            · cases he
            · cases he
              rw [kwTerms_cost h _ _ _ _ _ _ _ h2, posTerms_cost h _ _ _ _ _ _ _ _ h1, valsCost_append]
              simp [itemsCost]

/-- Work for the result of a call. -/
theorem World.call_cost (w : World F) (fid : Nat) (args : List (Val F)) (kwargs : List (String × Val F)) {w' : World F} {u : UF F}
    (he : w.call fid args kwargs = (w', .ok (.unc u))) :
    cost w'.nodes u.lin = valsCost w.nodes (args ++ kwargs.map Prod.snd) := by
  unfold World.call at he
  split at he
  · cases he
  · split at he
    · cases he
    · cases he
    · rename_i h1
      simp only [World.alloc] at he
      cases he
      simp only []
      rw [cost_append_self, nodeCost, callTerms_cost w.nodes h1]

theorem World.call_notImpl (w : World F) (fid : Nat) (args : List (Val F)) (kwargs : List (String × Val F)) {w' : World F}
    {v : PyVal F} (he : w.call fid args kwargs = (w', .ok (.plain v))) : w'.nodes = w.nodes := by
  unfold World.call at he
  split at he
  · cases he
  · split at he
    · cases he
    · cases he; rfl
    · cases he

end floats

section math
variable {F : Type} [PyMath F]

theorem valsCost_swap (h : Heap F) (a b : Val F) : valsCost h [b, a] = valsCost h [a, b] := by
  cases a <;> cases b <;> simp [valsCost] <;> omega

theorem World.binop_cost (w : World F) (op : BinOp) (a b : Val F) {w' : World F} {u : UF F}
    (he : w.binop op a b = (w', .ok (.unc u))) : cost w'.nodes u.lin = valsCost w.nodes [a, b] := by
  have refl : ∀ w1 : World F, w1.nodes = w.nodes → (match b with
      | .plain _ => (w1, .error .typeError)
      | .unc _ =>
        match w1.call op.rid [b, a] [] with
        | (w2, .ok (.plain .notImpl)) => (w2, .error .typeError)
        | r => r) = (w', .ok (.unc u)) → cost w'.nodes u.lin = valsCost w.nodes [a, b] := by
    intro w1 hw h
    cases b with
    | plain v => cases h
    | unc v =>
      simp only at h
      split at h
      · cases h
      · have := w1.call_cost _ _ _ h
        rw [this, hw]
        exact valsCost_swap _ _ _
  cases a with
  | plain v =>
    simp only [World.binop] at he
    exact refl w rfl he
  | unc v =>
    simp only [World.binop] at he
    split at he
    · rename_i h1
      exact refl _ (w.call_notImpl _ _ _ h1) he
    · exact w.call_cost _ _ _ he

/-- The work predicted for each result is not exceeded. -/
structure CostRel (m : Machine F) (ws : List Nat) : Prop where
  len : ws.length = m.env.length
  le : ∀ (k : Nat) (u : UF F), m.env[k]? = some (some (.unc u)) → cost m.w.nodes u.lin ≤ (ws[k]?).getD 0

theorem CostRel.evolve {m : Machine F} (hm : MShape m) {ws : List Nat} (h : CostRel m ws) {w' : World F}
    (hs : HSteps m.w.nodes w'.nodes) : CostRel ⟨w', m.env⟩ ws := by
  refine ⟨h.len, fun k u hk => ?_⟩
  have hv : (Val.unc u).Valid m.w := hm.env _ (List.mem_of_getElem? hk)
  exact Nat.le_trans ((hs.cost hm.shape.heap).2.2 _ hv.1) (h.le k u hk)

theorem CostRel.push {m : Machine F} {ws : List Nat} (h : CostRel m ws) (o : Option (Val F)) (n : Nat)
    (hn : ∀ u : UF F, o = some (.unc u) → cost m.w.nodes u.lin ≤ n) : CostRel ⟨m.w, m.env ++ [o]⟩ (ws ++ [n]) := by
  refine ⟨by simp [h.len], fun k u hk => ?_⟩
  rcases Nat.lt_trichotomy k m.env.length with hl | rfl | hl
  · simp only [] at hk
    rw [List.getElem?_append_left hl] at hk
    rw [List.getElem?_append_left (by rw [h.len]; exact hl)]
    exact h.le k u hk
  · simp at hk
    rw [← h.len]
    simpa using hn u hk
  · simp only [] at hk
    rw [List.getElem?_eq_none (by simp; omega)] at hk
    cases hk

theorem CostRel.bind {m : Machine F} (hm : MShape m) {ws : List Nat} (h : CostRel m ws) {w' : World F} {r : PyRes (Val F)}
    (hs : HSteps m.w.nodes w'.nodes) (n : Nat) (hn : ∀ u, r = .ok (.unc u) → cost w'.nodes u.lin ≤ n) :
    CostRel (Machine.bind m.env w' r).1 (ws ++ [n]) := by
  have h' := h.evolve hm hs
  unfold Machine.bind
  split
  · exact h'.push none n (by intro u hu; cases hu)
  · exact h'.push none n (by intro u hu; cases hu)
  · refine h'.push _ n (fun u hu => hn u ?_)
    cases hu
    rfl

theorem CostRel.skip {m : Machine F} {ws : List Nat} (h : CostRel m ws) (n : Nat) : CostRel (m.invalid 1).1 (ws ++ [n]) :=
  h.push none n (by intro u hu; cases hu)

theorem CostRel.operand {m : Machine F} {ws : List Nat} (h : CostRel m ws) {x : Arg F} {v : Val F} (hx : x.eval m.env = some v) :
    valsCost m.w.nodes [v] ≤ operandWork ws x := by
  cases v with
  | plain v => simp [valsCost]
  | unc u =>
    cases x with
    | const c => cases hx
    | ref k =>
      have : m.env[k]? = some (some (.unc u)) := by
        simp only [Arg.eval] at hx
        cases hk : m.env[k]? with
        | none => rw [hk] at hx; cases hx
        | some o => rw [hk] at hx; simp at hx; rw [hx]
      have := h.le k u this
      simp [valsCost, operandWork]
      exact this

theorem valsCost_cons (h : Heap F) (a : Val F) (l : List (Val F)) : valsCost h (a :: l) = valsCost h [a] + valsCost h l := by
  cases a <;> simp [valsCost]

theorem CostRel.operands {m : Machine F} {ws : List Nat} (h : CostRel m ws) {xs : List (Arg F)} {vs : List (Val F)}
    (hx : evalArgs (Arg.eval m.env) xs = some vs) : valsCost m.w.nodes vs ≤ (xs.map (operandWork ws)).sum := by
  induction xs generalizing vs with
  | nil => cases hx; simp [valsCost]
  | cons x xs ih =>
    simp only [evalArgs] at hx
    split at hx
    · cases hx
    · rename_i v hv
      split at hx
      · cases hx
      · rename_i vs' hvs
        cases hx
        rw [valsCost_cons]
        have := h.operand hv
        have := ih hvs
        simp only [List.map_cons, List.sum_cons]
        omega

theorem CostRel.operandsKw {m : Machine F} {ws : List Nat} (h : CostRel m ws) {xs : List (String × Arg F)}
    {vs : List (String × Val F)} (hx : evalArgs (Arg.evalKw m.env) xs = some vs) :
    valsCost m.w.nodes (vs.map Prod.snd) ≤ ((xs.map Prod.snd).map (operandWork ws)).sum := by
  induction xs generalizing vs with
  | nil => cases hx; simp [valsCost]
  | cons x xs ih =>
    simp only [evalArgs] at hx
    split at hx
    · cases hx
    · rename_i v hv
      split at hx
      · cases hx
      · rename_i vs' hvs
        cases hx
        rw [List.map_cons, valsCost_cons]
        obtain ⟨name, x⟩ := x
        have : x.eval m.env = some v.2 := by
          simp only [Arg.evalKw] at hv
          cases hxv : x.eval m.env with
          | none => rw [hxv] at hv; cases hv
          | some v' => rw [hxv] at hv; cases hv; rfl
        have := h.operand this
        have := ih hvs
        simp only [List.map_cons, List.sum_cons]
        omega

/-- After a reading of `x`. -/
theorem CostRel.mark {m : Machine F} (hm : MShape m) {ws : List Nat} (h : CostRel m ws) {w' : World F}
    (hs : HSteps m.w.nodes w'.nodes) (x : Arg F) (hx : ∀ u, x.evalUnc m.env = some u → cost w'.nodes u.lin = 0) :
    CostRel ⟨w', m.env⟩ (markRead ws x) := by
  have h' := h.evolve hm hs
  cases x with
  | const c => exact h'
  | ref k =>
    refine ⟨by simp [markRead, h.len], fun j u hj => ?_⟩
    by_cases hjk : k = j
    · subst hjk
      simp only at hj
      rw [hx u (by simp [Arg.evalUnc, Arg.eval, hj])]
      omega
    · simp only [markRead]
      rw [List.getElem?_set_ne hjk]
      exact h'.le j u hj

end math

end Unc
