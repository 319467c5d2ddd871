import Verif.Lemmas.Cost
import Verif.Lemmas.Shape3

/-
Copies take the same work as the originals (for C72).
-/

set_option autoImplicit false

namespace Unc

variable {F : Type} [PyFloat F]

theorem cost_append {h : Heap F} (l : Heap F) {i : NodeId} (hi : i < h.length) : cost (h ++ l) i = cost h i := by
  induction l using List.reverseRecOn with
  | nil => simp
  | append_singleton l lc ih =>
    rw [← List.append_assoc, cost_append_lt (by simp; omega), ih]

theorem HeapWF.append {h : Heap F} (hw : HeapWF h) (lc : LC F) (ht : ∀ ts, lc = .terms ts → ItemsBelow h.length ts) :
    HeapWF (h ++ [lc]) := by
  intro i ts hi
  rcases Nat.lt_trichotomy i h.length with hl | rfl | hl
  · rw [List.getElem?_append_left hl] at hi
    exact hw i ts hi
  · simp at hi
    exact ht ts hi
  · rw [List.getElem?_eq_none (by simp; omega)] at hi
    cases hi

/-- The objects in the memo take at most the work of their originals. -/
def MemoCost (w : World F) (m : Memo) : Prop :=
  ∀ p ∈ m.nodes, p.1 < w.nodes.length ∧ p.2 < w.nodes.length ∧ cost w.nodes p.2 ≤ cost w.nodes p.1

/-- A step of a copy: objects are added. -/
structure CopyCost (w w' : World F) (m' : Memo) : Prop where
  nodes : ∃ l, w'.nodes = w.nodes ++ l
  heap : HeapWF w'.nodes
  memo : MemoCost w' m'

theorem MemoCost.append {w w' : World F} {m : Memo} (h : MemoCost w m) (l : Heap F) (e : w'.nodes = w.nodes ++ l) :
    MemoCost w' m := by
  intro p hp
  obtain ⟨h1, h2, h3⟩ := h p hp
  rw [e, cost_append l h1, cost_append l h2]
  exact ⟨by simp; omega, by simp; omega, h3⟩

theorem CopyCost.trans {w w' w'' : World F} {m' m'' : Memo} (a : CopyCost w w' m') (b : CopyCost w' w'' m'') : CopyCost w w'' m'' := by
  obtain ⟨l, hl⟩ := a.nodes
  obtain ⟨l', hl'⟩ := b.nodes
  exact ⟨⟨l ++ l', by rw [hl', hl, List.append_assoc]⟩, b.heap, b.memo⟩

theorem CopyCost.refl {w : World F} {m : Memo} (hw : HeapWF w.nodes) (hm : MemoCost w m) : CopyCost w w m :=
  ⟨⟨[], (List.append_nil _).symm⟩, hw, hm⟩

theorem ufloat_copyCost {w w' : World F} {n s : F} {tag : Option String} {r : PyRes (UF F)} {m : Memo} (hw : HeapWF w.nodes)
    (hm : MemoCost w m) (h : w.ufloat n s tag = (w', r)) :
    CopyCost w w' m ∧ ∀ u, r = .ok u → u.lin < w'.nodes.length ∧ cost w'.nodes u.lin = 0 := by
  unfold World.ufloat at h
  split at h
  · cases h
    exact ⟨.refl hw hm, by intro u hu; cases hu⟩
  · simp only [World.alloc] at h
    cases h
    refine ⟨⟨⟨_, rfl⟩, hw.append _ (by intro ts hts; cases hts), hm.append _ rfl⟩, ?_⟩
    intro u hu
    cases hu
    refine ⟨by simp, ?_⟩
    simp only []
    rw [cost_append_self]
    rfl

theorem copyVarMemo_cost (share : Bool) {w w' : World F} {m m' : Memo} {v : VarId} {r : PyRes VarId} (hw : HeapWF w.nodes)
    (hm : MemoCost w m) (h : copyVarMemo share w m v = (w', m', r)) : CopyCost w w' m' := by
  unfold copyVarMemo at h
  cases hl : m.vars.lookup v with
  | some v' => rw [hl] at h; cases h; exact .refl hw hm
  | none =>
    rw [hl] at h
    simp only [] at h
    cases hv : w.vars[v]? with
    | none => rw [hv] at h; cases h; exact .refl hw hm
    | some cell =>
      rw [hv] at h
      simp only [] at h
      cases share with
      | true =>
        simp only [if_true] at h
        split at h
        · rename_i u x hn
          split at h
          · simp only [World.alloc] at h
            cases h
            refine ⟨⟨_, rfl⟩, hw.append _ (by intro ts hts; cases hts), ?_⟩
            intro p hp
            rcases List.mem_cons.mp hp with rfl | hp
            · have hlt := (List.getElem?_eq_some_iff.mp hn).1
              refine ⟨by simp; omega, by simp, ?_⟩
              simp only []
              rw [cost_append_self]
              exact Nat.zero_le _
            · exact (MemoCost.append (w' := { w with nodes := _, vars := _ }) hm _ rfl) p hp
          · cases h; exact .refl hw hm
        · cases h; exact .refl hw hm
      | false =>
        simp only [Bool.false_eq_true, if_false] at h
        cases hu : w.ufloat cell.nom cell.std cell.tag with
        | mk w1 r1 =>
          obtain ⟨hc, -⟩ := ufloat_copyCost hw hm hu
          rw [hu] at h
          cases r1 with
          | error e => cases h; exact hc
          | ok u =>
            simp only [] at h
            split at h
            · cases h; exact hc
            · cases h; exact ⟨hc.nodes, hc.heap, hc.memo⟩

theorem copyDict_cost (share : Bool) (d : Derivs F) {w w' : World F} {m m' : Memo} {r : PyRes (Derivs F)} (hw : HeapWF w.nodes)
    (hm : MemoCost w m) (h : copyDict share d w m = (w', m', r)) : CopyCost w w' m' := by
  induction d generalizing w m w' m' r with
  | nil => cases h; exact .refl hw hm
  | cons p d ih =>
    obtain ⟨v, x⟩ := p
    simp only [copyDict] at h
    cases h1 : copyVarMemo share w m v with
    | mk w1 t =>
      obtain ⟨m1, r1⟩ := t
      have c1 := copyVarMemo_cost share hw hm h1
      rw [h1] at h
      cases r1 with
      | error e => cases h; exact c1
      | ok v' =>
        simp only [] at h
        cases h2 : copyDict share d w1 m1 with
        | mk w2 t =>
          obtain ⟨m2, r2⟩ := t
          have c2 := ih c1.heap c1.memo h2
          rw [h2] at h
          cases r2 <;> cases h <;> exact c1.trans c2

/-- What is needed from a function that copies objects. -/
def CopiesCost (cp : NodeId → World F → Memo → World F × Memo × PyRes NodeId) : Prop :=
  ∀ (j : NodeId) (w w' : World F) (m m' : Memo) (r : PyRes NodeId), HeapWF w.nodes → MemoCost w m → cp j w m = (w', m', r) →
    CopyCost w w' m' ∧ ∀ j', r = .ok j' → j < w.nodes.length ∧ j' < w'.nodes.length ∧ cost w'.nodes j' ≤ cost w.nodes j

theorem copyItems_cost {cp : NodeId → World F → Memo → World F × Memo × PyRes NodeId} (hcp : CopiesCost cp) (i : NodeId)
    (ts : List (Item F)) {w w' : World F} {m m' : Memo} {r : PyRes (List (Item F))} (hw : HeapWF w.nodes) (hm : MemoCost w m)
    (hts : ItemsBelow i ts) (hi : i ≤ w.nodes.length) (h : copyItems cp ts w m = (w', m', r)) :
    CopyCost w w' m' ∧ ∀ ts', r = .ok ts' → ItemsBelow w'.nodes.length ts' ∧
      itemsCost (costs w'.nodes) ts' ≤ itemsCost (costs w.nodes) ts := by
  induction ts generalizing w m w' m' r with
  | nil =>
    cases h
    refine ⟨.refl hw hm, ?_⟩
    intro ts' h'
    cases h'
    exact ⟨fun t ht => (by cases ht), Nat.le_refl _⟩
  | cons t ts ih =>
    obtain ⟨c, j, rfl, hj⟩ := hts t (by simp)
    simp only [copyItems] at h
    cases h1 : copyItems cp ts w m with
    | mk w1 t =>
      obtain ⟨m1, r1⟩ := t
      obtain ⟨c1, d1⟩ := ih hw hm (fun t ht => hts t (by simp [ht])) hi h1
      rw [h1] at h
      cases r1 with
      | error e => cases h; exact ⟨c1, by intro ts' h'; cases h'⟩
      | ok ts' =>
        obtain ⟨e1, e2⟩ := d1 ts' rfl
        simp only [] at h
        cases h2 : cp j w1 m1 with
        | mk w2 t =>
          obtain ⟨m2, r2⟩ := t
          obtain ⟨c2, d2⟩ := hcp j w1 w2 m1 m2 r2 c1.heap c1.memo h2
          rw [h2] at h
          cases r2 with
          | error e => cases h; exact ⟨c1.trans c2, by intro ts' h'; cases h'⟩
          | ok j' =>
            obtain ⟨f1, f2, f3⟩ := d2 j' rfl
            cases h
            refine ⟨c1.trans c2, ?_⟩
            intro ts2 h'
            cases h'
            obtain ⟨l1, hl1⟩ := c1.nodes
            obtain ⟨l2, hl2⟩ := c2.nodes
            have hlen : w1.nodes.length ≤ w'.nodes.length := by rw [hl2]; simp
            refine ⟨?_, ?_⟩
            · intro t ht
              rcases List.mem_cons.mp ht with rfl | ht
              · exact ⟨c, j', rfl, f2⟩
              · obtain ⟨c', k, rfl, hk⟩ := e1 t ht
                exact ⟨c', k, rfl, by omega⟩
            · have h3 : cost w1.nodes j = cost w.nodes j := by rw [hl1, cost_append l1 (by omega)]
              have h4 : itemsCost (costs w'.nodes) ts' ≤ itemsCost (costs w1.nodes) ts' :=
                itemsCost_le e1 (fun k hk => by
                  have : cost w'.nodes k = cost w1.nodes k := by rw [hl2, cost_append l2 hk]
                  exact Nat.le_of_eq this)
              simp only [itemsCost]
              have h5 : ((costs w'.nodes)[j']?).getD 0 ≤ ((costs w.nodes)[j]?).getD 0 := by
                rw [h3] at f3; exact f3
              omega

theorem MemoCost.addNode {w : World F} {m : Memo} (h : MemoCost w m) (i j : NodeId) (hi : i < w.nodes.length)
    (hj : j < w.nodes.length) (hc : cost w.nodes j ≤ cost w.nodes i) : MemoCost w ⟨(i, j) :: m.nodes, m.vars⟩ := by
  intro p hp
  rcases List.mem_cons.mp hp with rfl | hp
  · exact ⟨hi, hj, hc⟩
  · exact h p hp

theorem copyNode_cost (share : Bool) (fuel : Nat) : CopiesCost (F := F) (copyNode share fuel) := by
  induction fuel with
  | zero =>
    intro j w w' m m' r hw hm h
    cases h
    exact ⟨.refl hw hm, by intro j' h'; cases h'⟩
  | succ fuel ih =>
    intro j w w' m m' r hw hm h
    unfold copyNode at h
    cases hl : m.nodes.lookup j with
    | some j' =>
      rw [hl] at h
      cases h
      refine ⟨.refl hw hm, ?_⟩
      intro j'' h'
      cases h'
      exact hm _ (mem_of_lookup_shape hl)
    | none =>
      rw [hl] at h
      simp only [] at h
      cases hg : w.nodes[j]? with
      | none => rw [hg] at h; cases h; exact ⟨.refl hw hm, by intro j' h'; cases h'⟩
      | some lc =>
        have hlt := (List.getElem?_eq_some_iff.mp hg).1
        rw [hg] at h
        cases lc with
        | dict d =>
          simp only [] at h
          cases h1 : copyDict share d w m with
          | mk w1 t =>
            obtain ⟨m1, r1⟩ := t
            have c1 := copyDict_cost share d hw hm h1
            obtain ⟨l1, hl1⟩ := c1.nodes
            rw [h1] at h
            cases r1 with
            | error e => cases h; exact ⟨c1, by intro j' h'; cases h'⟩
            | ok d' =>
              simp only [] at h
              cases hl2 : m1.nodes.lookup j with
              | some j' =>
                rw [hl2] at h
                cases h
                refine ⟨c1, ?_⟩
                intro j'' h'
                cases h'
                obtain ⟨-, a2, a3⟩ := c1.memo _ (mem_of_lookup_shape hl2)
                refine ⟨hlt, a2, ?_⟩
                simp only [] at a3
                rw [hl1, cost_append l1 hlt, ← hl1] at a3
                exact a3
              | none =>
                rw [hl2] at h
                simp only [World.alloc] at h
                cases h
                have hz : cost (w1.nodes ++ [LC.dict d']) w1.nodes.length = 0 := by rw [cost_append_self]; rfl
                have hj1 : j < w1.nodes.length := by rw [hl1]; simp; omega
                refine ⟨⟨⟨l1 ++ [LC.dict d'], by simp [hl1]⟩, c1.heap.append _ (by intro ts hts; cases hts), ?_⟩, ?_⟩
                · exact (MemoCost.append (w' := { w1 with nodes := _ }) c1.memo _ rfl).addNode _ _ (by simp; omega) (by simp)
                    (by simp only [hz]; exact Nat.zero_le _)
                · intro j' h'
                  cases h'
                  exact ⟨hlt, by simp, by simp only [hz]; exact Nat.zero_le _⟩
        | terms ts =>
          simp only [] at h
          have hb := hw j ts hg
          cases h1 : copyItems (copyNode share fuel) ts w m with
          | mk w1 t =>
            obtain ⟨m1, r1⟩ := t
            obtain ⟨c1, d1⟩ := copyItems_cost ih j ts hw hm hb (by omega) h1
            obtain ⟨l1, hl1⟩ := c1.nodes
            rw [h1] at h
            cases r1 with
            | error e => cases h; exact ⟨c1, by intro j' h'; cases h'⟩
            | ok ts' =>
              obtain ⟨e1, e2⟩ := d1 ts' rfl
              simp only [World.alloc] at h
              cases h
              have hj1 : j < w1.nodes.length := by rw [hl1]; simp; omega
              have hz : cost (w1.nodes ++ [LC.terms ts']) w1.nodes.length ≤ cost w.nodes j := by
                rw [cost_append_self, cost_terms hw hg]
                exact e2
              refine ⟨⟨⟨l1 ++ [LC.terms ts'], by simp [hl1]⟩, c1.heap.append _ (by intro ts hts; cases hts; exact e1), ?_⟩, ?_⟩
              · refine (MemoCost.append (w' := { w1 with nodes := _ }) c1.memo _ rfl).addNode _ _ (by simp; omega) (by simp) ?_
                simp only []
                rw [cost_append_lt hj1]
                rw [show cost w1.nodes j = cost w.nodes j by rw [hl1, cost_append l1 hlt]]
                exact hz
              · intro j' h'
                cases h'
                exact ⟨hlt, by simp, hz⟩

theorem MemoCost.empty (w : World F) : MemoCost w Memo.empty := fun p hp => by simp [Memo.empty] at hp

theorem copyVar_cost {w w' : World F} {v : VarId} {r : PyRes (UF F)} (hw : HeapWF w.nodes) (h : w.copyVar v = (w', r)) :
    (∃ l, w'.nodes = w.nodes ++ l) ∧ ∀ u, r = .ok u → cost w'.nodes u.lin = 0 := by
  unfold World.copyVar at h
  cases hv : w.vars[v]? with
  | none => rw [hv] at h; cases h; exact ⟨⟨[], (List.append_nil _).symm⟩, by intro u hu; cases hu⟩
  | some cell =>
    rw [hv] at h
    obtain ⟨a, b⟩ := ufloat_copyCost hw (MemoCost.empty w) h
    exact ⟨a.nodes, fun u hu => (b u hu).2⟩

theorem World.copy_cost {w w' : World F} {u : UF F} {r : PyRes (UF F)} (hw : HeapWF w.nodes) (h : w.copy u = (w', r)) :
    (∃ l, w'.nodes = w.nodes ++ l) ∧ ∀ u', r = .ok u' → cost w'.nodes u'.lin ≤ cost w.nodes u.lin := by
  unfold World.copy at h
  cases hv : u.var with
  | none =>
    rw [hv] at h
    cases h
    refine ⟨⟨[], (List.append_nil _).symm⟩, ?_⟩
    intro u' hu
    cases hu
    exact Nat.le_refl _
  | some v =>
    rw [hv] at h
    obtain ⟨a, b⟩ := copyVar_cost hw h
    exact ⟨a, fun u' hu => by rw [b u' hu]; exact Nat.zero_le _⟩

theorem World.deepcopy_cost {w w' : World F} {u : UF F} {r : PyRes (UF F)} (hw : HeapWF w.nodes) (h : w.deepcopy u = (w', r)) :
    (∃ l, w'.nodes = w.nodes ++ l) ∧ ∀ u', r = .ok u' → cost w'.nodes u'.lin ≤ cost w.nodes u.lin := by
  unfold World.deepcopy at h
  cases hv : u.var with
  | none =>
    rw [hv] at h
    simp only [] at h
    cases h1 : copyNode false (u.lin + 1) u.lin w Memo.empty with
    | mk w1 t =>
      obtain ⟨m1, r1⟩ := t
      obtain ⟨c1, d1⟩ := copyNode_cost false _ _ _ _ _ _ _ hw (MemoCost.empty w) h1
      rw [h1] at h
      cases r1 with
      | error e => cases h; exact ⟨c1.nodes, by intro u' hu; cases hu⟩
      | ok n =>
        cases h
        refine ⟨c1.nodes, ?_⟩
        intro u' hu
        cases hu
        exact (d1 n rfl).2.2
  | some v =>
    rw [hv] at h
    obtain ⟨a, b⟩ := copyVar_cost hw h
    exact ⟨a, fun u' hu => by rw [b u' hu]; exact Nat.zero_le _⟩

theorem pickleOne_cost {w w' : World F} {m m' : Memo} {u : UF F} {r : PyRes (UF F)} (hw : HeapWF w.nodes)
    (hv : ∀ (v : VarId) (c : VarCell F), w'.vars[v]? = some c → ∃ d, w'.nodes[c.lin]? = some (.dict d)) (hm : MemoCost w m)
    (h : pickleOne w m u = (w', m', r)) :
    CopyCost w w' m' ∧ ∀ u', r = .ok u' → u'.lin < w'.nodes.length ∧ cost w'.nodes u'.lin ≤ cost w.nodes u.lin := by
  unfold pickleOne at h
  cases hvar : u.var with
  | none =>
    rw [hvar] at h
    simp only [] at h
    cases h1 : copyNode true (u.lin + 1) u.lin w m with
    | mk w1 t =>
      obtain ⟨m1, r1⟩ := t
      obtain ⟨c1, d1⟩ := copyNode_cost true _ _ _ _ _ _ _ hw hm h1
      rw [h1] at h
      cases r1 with
      | error e => cases h; exact ⟨c1, by intro u' hu; cases hu⟩
      | ok n =>
        cases h
        refine ⟨c1, ?_⟩
        intro u' hu
        cases hu
        exact (d1 n rfl).2
  | some v =>
    rw [hvar] at h
    simp only [] at h
    cases h1 : copyVarMemo true w m v with
    | mk w1 t =>
      obtain ⟨m1, r1⟩ := t
      have c1 := copyVarMemo_cost true hw hm h1
      rw [h1] at h
      cases r1 with
      | error e => cases h; exact ⟨c1, by intro u' hu; cases hu⟩
      | ok v' =>
        simp only [] at h
        cases hc : w1.vars[v']? with
        | none => rw [hc] at h; cases h; exact ⟨c1, by intro u' hu; cases hu⟩
        | some cell =>
          rw [hc] at h
          cases h
          refine ⟨c1, ?_⟩
          intro u' hu
          cases hu
          obtain ⟨d, hd⟩ := hv v' cell hc
          refine ⟨(List.getElem?_eq_some_iff.mp hd).1, ?_⟩
          simp only []
          rw [cost_dict c1.heap hd]
          exact Nat.zero_le _

theorem pickleList_cost (us : List (UF F)) {w : World F} {m : Memo} (hs : Shape w) (hok : MemoOK w m) (hus : ∀ u ∈ us, u.Valid w)
    (hm : MemoCost w m) :
    ∃ w' us', pickleList us w m = (w', .ok us') ∧ (∃ l, w'.nodes = w.nodes ++ l) ∧
      List.Forall₂ (fun u u' => cost w'.nodes u'.lin ≤ cost w.nodes u.lin) us us' := by
  induction us generalizing w m with
  | nil => exact ⟨w, [], rfl, ⟨[], (List.append_nil _).symm⟩, .nil⟩
  | cons u us ih =>
    obtain ⟨w1, m1, u', a1, a2, a3, a4, -⟩ := pickleOne_shape hs hok (hus u (by simp))
    obtain ⟨c1, d1⟩ := pickleOne_cost hs.heap (fun v c hv => ⟨_, a2.shape.vars v c hv⟩) hm a1
    obtain ⟨e1, e2⟩ := d1 u' rfl
    obtain ⟨l1, hl1⟩ := c1.nodes
    obtain ⟨w2, us', b1, ⟨l2, hl2⟩, b3⟩ := ih a2.shape a3 (fun v hv => (hus v (by simp [hv])).grows a2) c1.memo
    refine ⟨w2, u' :: us', by simp only [pickleList, a1, b1], ⟨l1 ++ l2, by rw [hl2, hl1, List.append_assoc]⟩, .cons ?_ ?_⟩
    · rw [hl2, cost_append l2 e1]
      exact e2
    · refine List.forall₂_iff_get.mpr ?_
      obtain ⟨f1, f2⟩ := List.forall₂_iff_get.mp b3
      refine ⟨f1, fun i hi hi' => ?_⟩
      have := f2 i hi hi'
      rw [show cost w1.nodes (us.get ⟨i, hi⟩).lin = cost w.nodes (us.get ⟨i, hi⟩).lin by
        rw [hl1, cost_append l1 (hus _ (by simp)).1]] at this
      exact this

end Unc
