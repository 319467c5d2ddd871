import Verif.Lemmas.Cost
import Verif.Lemmas.CostCopy

/-
The number of terms handled by readings, after any history.
-/

set_option autoImplicit false
set_option linter.unusedSectionVars false

namespace Unc

variable {F : Type} [PyMath F]

theorem World.binop_h {w : World F} (h : Shape w) (ho : HasOps w) (op : BinOp) {a b : Val F} (ha : a.Valid w) (hb : b.Valid w) :
    HSteps w.nodes (w.binop op a b).1.nodes := by
  have refl : ∀ w1 : World F, Shape w1 → a.Valid w1 → b.Valid w1 → w1.nodes = w.nodes → HSteps w.nodes (match b with
      | .plain _ => (w1, (.error .typeError : PyRes (Val F)))
      | .unc _ =>
        match w1.call op.rid [b, a] [] with
        | (w2, .ok (.plain .notImpl)) => (w2, .error .typeError)
        | r => r).1.nodes := by
    intro w1 hs ha hb hw
    rw [← hw]
    cases b with
    | plain v => exact .refl _
    | unc v =>
      have := World.call_h hs op.rid (args := [.unc v, a]) (kwargs := []) (by
        intro x hx
        simp only [List.mem_cons, List.not_mem_nil, or_false] at hx
        rcases hx with rfl | rfl
        · exact hb
        · exact ha) (by simp)
      simp only []
      split
      · rename_i h1; rw [h1] at this; exact this
      · exact this
  cases a with
  | plain v => exact refl w h ha hb rfl
  | unc v =>
    have two : ∀ x ∈ [Val.unc v, b], x.Valid w := by
      intro x hx
      simp only [List.mem_cons, List.not_mem_nil, or_false] at hx
      rcases hx with rfl | rfl
      · exact ha
      · exact hb
    have := World.call_h h op.id (kwargs := []) two (by simp)
    simp only [World.binop]
    split
    · rename_i w1 h1
      obtain ⟨w1', r, e, hr, -⟩ := World.call_shape h (ho.binop op) (kwargs := []) two (by simp)
      have e1 : w1 = w1' := by rw [h1] at e; cases e; rfl
      rw [← e1] at hr
      exact refl w1 hr.shape (ha.grows hr.grows) (hb.grows hr.grows) (w.call_notImpl _ _ _ h1)
    · exact this

theorem World.derivatives_free {w : World F} (h : Shape w) {u : UF F} (hu : u.Valid w) :
    cost (w.derivatives u).1.nodes u.lin = 0 := by
  obtain ⟨d, hd⟩ := readDerivs_terminates w.nodes h.heap u.lin hu.1
  simp only [World.derivatives, hd]
  exact cost_setDict_self h.heap _ _

theorem World.errorComponents_free {w : World F} (h : Shape w) {u : UF F} (hu : u.Valid w) :
    cost (w.errorComponents u).1.nodes u.lin = 0 := by
  have := World.derivatives_free h hu
  unfold World.errorComponents
  split <;> rename_i h1 <;> rw [h1] at this <;> exact this

theorem World.affStdDev_free {w : World F} (h : Shape w) {u : UF F} (hu : u.Valid w) :
    cost (w.affStdDev u).1.nodes u.lin = 0 := by
  have := World.errorComponents_free h hu
  unfold World.affStdDev
  split
  · rename_i h1; rw [h1] at this; exact this
  · rename_i h1; rw [h1] at this; split <;> exact this

theorem World.var_free {w : World F} (h : Shape w) {v : VarId} {cell : VarCell F} (hv : w.vars[v]? = some cell) :
    cost w.nodes cell.lin = 0 := cost_dict h.heap (h.vars v cell hv)

theorem World.stdDev_free {w : World F} (h : Shape w) {u : UF F} (hu : u.Valid w) : cost (w.stdDev u).1.nodes u.lin = 0 := by
  cases hv : u.var with
  | none => simp only [World.stdDev, hv]; exact World.affStdDev_free h hu
  | some v =>
    obtain ⟨cell, h1, h2, -⟩ := hu.2 v hv
    simp only [World.stdDev, hv, h1]
    rw [← h2]
    exact World.var_free h h1

theorem World.stdScore_free {w : World F} (h : Shape w) {u : UF F} (hu : u.Valid w) (x : F) :
    cost (w.stdScore u x).1.nodes u.lin = 0 := by
  have := World.stdDev_free h hu
  unfold World.stdScore
  split
  · rename_i h1; rw [h1] at this; exact this
  · rename_i h1; rw [h1] at this; exact this
  · rename_i h1; rw [h1] at this; split <;> exact this

theorem Machine.read_cost {m : Machine F} (hm : MShape m) {ws : List Nat} (h : CostRel m ws) (x : Arg F) {α : Type}
    (f : World F → UF F → World F × PyRes α) (g : α → Out F)
    (hf : ∀ u, x.evalUnc m.env = some u → HSteps m.w.nodes (f m.w u).1.nodes)
    (hz : ∀ u, x.evalUnc m.env = some u → cost (f m.w u).1.nodes u.lin = 0) :
    CostRel (m.read x (fun w u => mapRes g (f w u))).1 (markRead ws x) := by
  simp only [Machine.read]
  cases hx : x.evalUnc m.env with
  | none => 
    have := h.mark hm (HSteps.refl m.w.nodes) x (by intro u hu; rw [hx] at hu; cases hu)
    simpa [Machine.invalid] using this
  | some u =>
    have h1 := hf u hx
    have h2 := hz u hx
    simp only [mapRes]
    have := h.mark hm h1 x (by intro u' hu'; rw [hx] at hu'; cases hu'; exact h2)
    revert this
    generalize f m.w u = r
    obtain ⟨w', r⟩ := r
    intro this
    cases r <;> exact this

theorem CostRel.same {m m' : Machine F} (hm : MShape m) {ws : List Nat} (h : CostRel m ws) (he : m'.env = m.env)
    (hs : HSteps m.w.nodes m'.w.nodes) : CostRel m' ws := by
  have := h.evolve hm hs
  rw [← he] at this
  exact this

theorem CostRel.single {m : Machine F} {ws : List Nat} (h : CostRel m ws) {x : Arg F} {v : Val F} (hx : x.eval m.env = some v) :
    valsCost m.w.nodes [v] ≤ ([x].map (operandWork ws)).sum := by
  simpa using h.operand hx

theorem evalUnc_eval {env : List (Option (Val F))} {x : Arg F} {u : UF F} (hx : x.evalUnc env = some u) :
    x.eval env = some (.unc u) := by
  simp only [Arg.evalUnc] at hx
  split at hx
  · cases hx; assumption
  · cases hx

theorem CostRel.modf {m : Machine F} (hm : MShape m) {ws : List Nat} (h : CostRel m ws) (x : Arg F) :
    CostRel (m.step (.modf x)).1 (workStep ws (.modf x)) := by
  have two : ∀ {w' : World F} (hs : HSteps m.w.nodes w'.nodes) (o o' : Option (Val F)) (a b : Nat),
      (∀ u, o = some (.unc u) → cost w'.nodes u.lin ≤ a) → (∀ u, o' = some (.unc u) → cost w'.nodes u.lin ≤ b) →
      CostRel ⟨w', m.env ++ [o, o']⟩ (ws ++ [a, b]) := by
    intro w' hs o o' a b ha hb
    have := ((h.evolve hm hs).push o a ha).push o' b hb
    simpa using this
  have bad : ∀ {w' : World F} (hs : HSteps m.w.nodes w'.nodes) (a b : Nat), CostRel ⟨w', m.env ++ [none, none]⟩ (ws ++ [a, b]) :=
    fun hs a b => two hs _ _ a b (by intro u hu; cases hu) (by intro u hu; cases hu)
  simp only [Machine.step, workStep, Cmd.operands]
  split
  · exact bad (.refl _) _ _
  · rename_i v hv
    have hval := hm.eval hv
    have hop := h.single hv
    split
    · exact bad (.refl _) _ _
    · have hs := m.w.toAffine_h v
      cases hmf : m.w.modf v with
      | mk w' r =>
        have hs' : HSteps m.w.nodes w'.nodes := by
          have : (m.w.modf v).1 = (m.w.toAffine v).1 := by
            unfold World.modf
            split
            · rename_i h1; rw [h1]
            · rename_i h1; rw [h1]
            · rename_i h1
              rw [h1]
              simp only []
              split <;> rfl
          rw [hmf] at this
          simp only [] at this
          rw [this]
          exact hs
        cases r with
        | error e => exact bad hs' _ _
        | ok p =>
          obtain ⟨a, b⟩ := p
          simp only []
          refine two hs' _ _ _ _ ?_ (by intro u hu; cases hu)
          intro u hu
          cases hu
          cases v with
          | unc z =>
            simp only [World.modf, World.toAffine] at hmf
            split at hmf
            · cases hmf
            · cases hmf
              simp only [valsCost] at hop
              simp only [] at hop ⊢
              omega
            · cases hmf
          | plain z =>
            exfalso
            cases z with
            | flt z =>
              simp [World.modf, World.toAffine, World.linTruthy, World.alloc, LC.truthy] at hmf
            | cplx => cases hmf
            | other _ => cases hmf
            | notImpl => cases hmf

theorem CostRel.ldexp {m : Machine F} (hm : MShape m) {ws : List Nat} (h : CostRel m ws) (x : Arg F) (i : Int) :
    CostRel (m.step (.ldexp x i)).1 (workStep ws (.ldexp x i)) := by
  simp only [Machine.step, workStep, Cmd.operands]
  split
  · exact h.skip _
  · rename_i v hv
    have hval := hm.eval hv
    have hop := h.single hv
    split
    · exact h.skip _
    · cases v with
      | unc z =>
        simp only [World.ldexp, World.toAffine]
        cases hl : m.w.linTruthy z with
        | error e => exact h.bind hm (.refl _) _ (by intro u hu; cases hu)
        | ok b =>
          cases b with
          | false => exact h.bind hm (.refl _) _ (by intro u hu; cases hu)
          | true =>
            simp only []
            cases PyMath.ldexp z.nom i with
            | error e => exact h.bind hm (.refl _) _ (by intro u hu; cases hu)
            | ok r =>
              refine h.bind hm (w' := { m.w with nodes := m.w.nodes ++ [_] }) (.alloc _ (.refl _) ?_ (by intro d hd; cases hd)) _ ?_
              · intro ts hts
                cases hts
                intro t ht
                simp at ht
                exact ⟨_, _, ht, hval.1⟩
              · intro u hu
                cases hu
                simp only [World.alloc]
                rw [cost_append_self]
                simp only [nodeCost, itemsCost]
                simp only [valsCost, cost] at hop
                omega
      | plain z =>
        have hs := m.w.toAffine_h (.plain z)
        cases z with
        | flt z =>
          have e : (m.w.alloc (LC.dict [])).1.linTruthy
              ({ nom := z, lin := (m.w.alloc (LC.dict [])).2, var := none } : UF F) = .ok false := by
            simp [World.linTruthy, World.alloc, LC.truthy]
          simp only [World.ldexp, World.toAffine, e]
          cases PyMath.ldexp z i with
          | error e => exact h.bind hm hs _ (by intro u hu; cases hu)
          | ok r => exact h.bind hm hs _ (by intro u hu; cases hu)
        | cplx => exact h.bind hm (.refl _) _ (by intro u hu; cases hu)
        | other _ => exact h.bind hm (.refl _) _ (by intro u hu; cases hu)
        | notImpl => exact h.bind hm (.refl _) _ (by intro u hu; cases hu)

/-- Every command, except copies, does not exceed the predicted work. -/
theorem CostRel.grow {m : Machine F} (hm : MShape m) {ws : List Nat} (h : CostRel m ws) {w' : World F} {l : Heap F}
    (hl : w'.nodes = m.w.nodes ++ l) : CostRel ⟨w', m.env⟩ ws := by
  refine ⟨h.len, fun k u hk => ?_⟩
  have hv : (Val.unc u).Valid m.w := hm.env _ (List.mem_of_getElem? hk)
  simp only [hl]
  rw [cost_append l hv.1]
  exact h.le k u hk

theorem CostRel.copyWork {m : Machine F} {ws : List Nat} (h : CostRel m ws) {x : Arg F} {u : UF F}
    (hx : x.evalUnc m.env = some u) : cost m.w.nodes u.lin ≤ copyWork ws x := by
  have he := evalUnc_eval hx
  cases x with
  | const c => cases he
  | ref k =>
    refine h.le k u ?_
    simp only [Arg.eval] at he
    cases hk : m.env[k]? with
    | none => rw [hk] at he; cases he
    | some o => rw [hk] at he; simp at he; rw [he]

theorem CostRel.copied1 {m : Machine F} (hm : MShape m) {ws : List Nat} (h : CostRel m ws) {w' : World F} {l : Heap F}
    (hl : w'.nodes = m.w.nodes ++ l) {x : Arg F} {z : UF F} (hz : x.evalUnc m.env = some z) {r : PyRes (UF F)}
    (h2 : ∀ u', r = .ok u' → cost w'.nodes u'.lin ≤ cost m.w.nodes z.lin) :
    CostRel ⟨w', m.env ++ [none]⟩ (ws ++ [Unc.copyWork ws x]) ∧
    ∀ u', r = .ok u' → CostRel ⟨w', m.env ++ [some (.unc u')]⟩ (ws ++ [Unc.copyWork ws x]) := by
  have h' := h.grow hm hl
  refine ⟨h'.push none _ (by intro u hu; cases hu), fun u' hu' => h'.push _ _ ?_⟩
  intro u hu
  cases hu
  exact Nat.le_trans (h2 _ hu') (h.copyWork hz)

theorem CostRel.pushNone {m : Machine F} {ws : List Nat} (h : CostRel m ws) (n : Nat) (l : List Nat) (hl : l.length = n) :
    CostRel ⟨m.w, m.env ++ List.replicate n none⟩ (ws ++ l) := by
  subst hl
  induction l using List.reverseRecOn with
  | nil => simpa using h
  | append_singleton l a ih =>
    have := ih.push none a (by intro u hu; cases hu)
    simpa [List.replicate_succ'] using this

theorem CostRel.pushCopies {m : Machine F} {ws : List Nat} (h : CostRel m ws) {us : List (UF F)} {l : List Nat}
    (hl : List.Forall₂ (fun u n => cost m.w.nodes u.lin ≤ n) us l) :
    CostRel ⟨m.w, m.env ++ us.map (fun u => some (.unc u))⟩ (ws ++ l) := by
  have key : ∀ {us : List (UF F)} {l : List Nat}, List.Forall₂ (fun u n => cost m.w.nodes u.lin ≤ n) us l →
      ∀ {env : List (Option (Val F))} {ws : List Nat}, CostRel ⟨m.w, env⟩ ws →
      CostRel ⟨m.w, env ++ us.map (fun u => some (.unc u))⟩ (ws ++ l) := by
    intro us l hl
    induction hl with
    | nil => intro env ws h; simpa using h
    | @cons u n us l hu _ ih =>
      intro env ws h
      have := ih (h.push (some (.unc u)) n (by intro u' hu'; cases hu'; exact hu))
      simpa using this
  exact key hl h

theorem CostRel.copies {m : Machine F} {ws : List Nat} (h : CostRel m ws) {xs : List (Arg F)} {us us' : List (UF F)} {w' : World F}
    (hx : evalArgs (Arg.evalUnc m.env) xs = some us)
    (h2 : List.Forall₂ (fun u u' => cost w'.nodes u'.lin ≤ cost m.w.nodes u.lin) us us') :
    List.Forall₂ (fun u n => cost w'.nodes u.lin ≤ n) us' (xs.map (Unc.copyWork ws)) := by
  induction xs generalizing us us' with
  | nil =>
    cases hx
    cases h2
    exact .nil
  | cons x xs ih =>
    simp only [evalArgs] at hx
    cases h1 : x.evalUnc m.env with
    | none => rw [h1] at hx; cases hx
    | some u =>
      cases h3 : evalArgs (Arg.evalUnc m.env) xs with
      | none => rw [h1, h3] at hx; cases hx
      | some us1 =>
        rw [h1, h3] at hx
        cases hx
        cases h2 with
        | cons a b => exact .cons (Nat.le_trans a (h.copyWork h1)) (ih h3 b)

theorem CostRel.step [Halts F] {m : Machine F} (hm : MShape m) {ws : List Nat} (h : CostRel m ws) (c : Cmd F) :
    CostRel (m.step c).1 (workStep ws c) := by
  cases c with
  | ufloat n s tag =>
    simp only [Machine.step, workStep, World.ufloat]
    cases (PyFloat.ltb s 0 && !PyFloat.isInf s) with
    | true => exact h.skip 0
    | false =>
      simp only [Bool.false_eq_true, if_false, World.alloc]
      have hs : HSteps m.w.nodes (m.w.nodes ++ [LC.dict [(m.w.vars.length, (1 : F))]]) :=
        .alloc _ (.refl _) (by intro ts hts; cases hts) (by intro d hd; cases hd; simp [KeysNodup])
      refine (h.evolve hm (w' := { m.w with nodes := _, vars := _ }) hs).push _ 0 ?_
      intro u hu
      cases hu
      simp only []
      rw [cost_append_self]
      rfl
  | affine n items =>
    simp only [Machine.step, workStep]
    split
    · exact h.skip 0
    · rename_i d hd
      split
      · rename_i hn
        have hs : HSteps m.w.nodes (m.w.nodes ++ [LC.dict d]) :=
          .alloc _ (.refl _) (by intro ts hts; cases hts) (by intro d' hd'; cases hd'; exact hn)
        simp only [World.alloc]
        refine (h.evolve hm (w' := { m.w with nodes := _ }) hs).push _ 0 ?_
        intro u hu
        cases hu
        simp only []
        rw [cost_append_self]
        rfl
      · exact h.skip 0
  | wrap df => exact h.same hm rfl (.refl _)
  | call f args kwargs =>
    simp only [Machine.step, workStep, Cmd.operands]
    split
    · split
      · rename_i a k ha hk
        have hao : ∀ x ∈ a, x.Valid m.w := by
          intro x hx
          obtain ⟨_, _, e⟩ := evalArgs_mem ha x hx
          exact hm.eval e
        have hko : ∀ x ∈ k, x.2.Valid m.w := by
          intro x hx
          obtain ⟨p, _, e⟩ := evalArgs_mem hk x hx
          simp only [Arg.evalKw] at e
          cases hp : p.2.eval m.env with
          | none => rw [hp] at e; cases e
          | some v => rw [hp] at e; cases e; exact hm.eval hp
        have hs := World.call_h hm.shape f hao hko
        have h1 := h.operands ha
        have h2 := h.operandsKw hk
        cases hcall : m.w.call f a k with
        | mk w' r =>
          rw [hcall] at hs
          refine h.bind hm hs _ ?_
          intro u hu
          subst hu
          rw [m.w.call_cost f a k hcall, valsCost_append, List.map_append, List.sum_append]
          omega
      · exact h.skip _
    · exact h.skip _
  | unop op x =>
    simp only [Machine.step, workStep, Cmd.operands]
    split
    · exact h.skip _
    · rename_i z hz
      have hv := hm.evalUnc hz
      have hs := World.call_h hm.shape op.id (args := [.unc z]) (kwargs := []) (by
        intro x hx
        simp only [List.mem_cons, List.not_mem_nil, or_false] at hx
        subst hx
        exact hv) (by simp)
      have h1 := h.single (evalUnc_eval hz)
      cases hcall : m.w.unop op z with
      | mk w' r =>
        have hcall' := hcall
        simp only [World.unop] at hcall'
        rw [hcall'] at hs
        refine h.bind hm hs _ ?_
        intro u hu
        subst hu
        rw [m.w.call_cost _ _ _ hcall']
        simpa using h1
  | binop op x y =>
    simp only [Machine.step, workStep, Cmd.operands]
    split
    · rename_i a b ha hb
      split
      · have hs := World.binop_h hm.shape hm.ops op (hm.eval ha) (hm.eval hb)
        cases hcall : m.w.binop op a b with
        | mk w' r =>
          rw [hcall] at hs
          refine h.bind hm hs _ ?_
          intro u hu
          subst hu
          rw [m.w.binop_cost op a b hcall, valsCost_cons]
          have h1 := h.operand ha
          have h2 := h.operand hb
          simp only [List.map_cons, List.map_nil, List.sum_cons, List.sum_nil]
          omega
      · exact h.skip _
    · exact h.skip _
  | modf x => exact h.modf hm x
  | ldexp x i => exact h.ldexp hm x i
  | lcst f args kwargs =>
    simp only [Machine.step, workStep]
    split
    · refine h.bind hm (.refl _) _ ?_
      intro u hu
      unfold wrapLocallyCst at hu
      revert hu
      cases f _ _ <;> intro hu <;> cases hu
    · exact h.skip _
  | copy x =>
    simp only [Machine.step, workStep]
    split
    · exact h.skip _
    · rename_i z hz
      cases hcall : m.w.copy z with
      | mk w' r =>
        obtain ⟨⟨l, hl⟩, h2⟩ := World.copy_cost hm.shape.heap hcall
        obtain ⟨a, b⟩ := h.copied1 hm hl hz h2
        cases r with
        | error e => exact a
        | ok u => exact b u rfl
  | deepcopy x =>
    simp only [Machine.step, workStep]
    split
    · exact h.skip _
    · rename_i z hz
      cases hcall : m.w.deepcopy z with
      | mk w' r =>
        obtain ⟨⟨l, hl⟩, h2⟩ := World.deepcopy_cost hm.shape.heap hcall
        obtain ⟨a, b⟩ := h.copied1 hm hl hz h2
        cases r with
        | error e => exact a
        | ok u => exact b u rfl
  | pickle xs =>
    simp only [Machine.step, workStep]
    cases hxs : evalArgs (Arg.evalUnc m.env) xs with
    | none =>
      simp only [Machine.invalid]
      exact h.pushNone xs.length _ (by simp)
    | some us =>
      obtain ⟨w', us', h1, ⟨l, hl⟩, h2⟩ := pickleList_cost us hm.shape (MemoOK.empty m.w) (by
        intro u hu
        obtain ⟨x, _, e⟩ := evalArgs_mem hxs u hu
        exact hm.evalUnc e) (MemoCost.empty m.w)
      simp only [World.pickle, h1]
      exact (h.grow hm hl).pushCopies (h.copies hxs h2)
  | «variable» x v =>
    simp only [Machine.step, workStep]
    split
    · exact h.skip _
    · rename_i z hz
      have hs := m.w.variable_h z v
      have hshape := World.variable_shape hm.shape (hm.evalUnc hz) v
      cases hcall : m.w.variable z v with
      | mk w' r =>
        rw [hcall] at hs
        have h' := h.evolve hm hs
        cases r with
        | error e => exact h'.push none 0 (by intro u hu; cases hu)
        | ok u =>
          refine h'.push _ 0 ?_
          intro u' hu'
          cases hu'
          obtain ⟨w1, r1, e1, hr, -, hv⟩ := hshape
          rw [hcall] at e1
          cases e1
          obtain ⟨hv1, hv2⟩ := hv u rfl
          obtain ⟨cell, c1, c2, -⟩ := hv1.2 v hv2
          show cost w'.nodes u.lin ≤ 0
          rw [← c2, World.var_free hr.shape c1]
  | setStd x s =>
    have := Machine.step_ok hm (.setStd x s)
    refine h.same hm ?_ ?_
    · obtain ⟨l, h1, h2⟩ := this.env
      rw [h1, List.length_eq_zero_iff.1 h2, List.append_nil]
    · refine Machine.read_h m x (fun w u => w.assignStd u s) _ fun u _ => ?_
      unfold World.assignStd World.setStd
      split
      · exact .refl _
      · split
        · exact .refl _
        · split <;> exact .refl _
  | stdDev x =>
    simp only [Machine.step, workStep]
    split
    · rename_i hx
      have := h.mark hm (HSteps.refl m.w.nodes) x (by intro u hu; rw [evalUnc_eval hu] at hx; cases hx)
      simpa [Machine.invalid] using this
    · rename_i v hv
      have hs := m.w.stdDevOf_h v
      have hz : ∀ u, x.evalUnc m.env = some u → cost (m.w.stdDevOf v).1.nodes u.lin = 0 := by
        intro u hu
        rw [evalUnc_eval hu] at hv
        cases hv
        exact World.stdDev_free hm.shape (hm.evalUnc hu)
      have := h.mark hm hs x hz
      split <;> rename_i h2 <;> rw [h2] at this <;> exact this
  | s x => exact Machine.read_cost hm h x _ _ (fun u _ => m.w.affStdDev_h u) fun u hu => World.affStdDev_free hm.shape (hm.evalUnc hu)
  | derivatives x =>
    exact Machine.read_cost hm h x _ _ (fun u _ => m.w.derivatives_h u) fun u hu => World.derivatives_free hm.shape (hm.evalUnc hu)
  | errorComponents x =>
    exact Machine.read_cost hm h x _ _ (fun u _ => m.w.errorComponents_h u) fun u hu =>
      World.errorComponents_free hm.shape (hm.evalUnc hu)
  | stdScore x value =>
    exact Machine.read_cost hm h x (fun w u => w.stdScore u value) _ (fun u _ => m.w.stdScore_h u value) fun u hu =>
      World.stdScore_free hm.shape (hm.evalUnc hu) value
  | nominal x => 
    exact h.same hm (by simp only [Machine.step]; split <;> simp [Machine.invalid]) (Machine.step_h hm (.nominal x) rfl)
  | covarianceMatrix xs =>
    refine h.same hm ?_ (Machine.step_h hm (.covarianceMatrix xs) rfl)
    obtain ⟨l, h1, h2⟩ := (Machine.step_ok hm (.covarianceMatrix xs)).env
    rw [h1, List.length_eq_zero_iff.1 h2, List.append_nil]
  | compare op x y =>
    refine h.same hm ?_ (Machine.step_h hm (.compare op x y) rfl)
    obtain ⟨l, h1, h2⟩ := (Machine.step_ok hm (.compare op x y)).env
    rw [h1, List.length_eq_zero_iff.1 h2, List.append_nil]
  | toBool x =>
    refine h.same hm ?_ (Machine.step_h hm (.toBool x) rfl)
    obtain ⟨l, h1, h2⟩ := (Machine.step_ok hm (.toBool x)).env
    rw [h1, List.length_eq_zero_iff.1 h2, List.append_nil]
  | tag x =>
    refine h.same hm ?_ (Machine.step_h hm (.tag x) rfl)
    obtain ⟨l, h1, h2⟩ := (Machine.step_ok hm (.tag x)).env
    rw [h1, List.length_eq_zero_iff.1 h2, List.append_nil]

end Unc
