import Verif.Lemmas.HSteps

/-
Calculated derivatives never change: this is true for all the commands and for any float semantics.
-/

namespace Unc

set_option autoImplicit false
set_option linter.unusedSectionVars false

section floats
variable {F : Type} [PyFloat F]

/-- Calculated derivatives are the same in `h'`. -/
def Stays (h h' : Heap F) : Prop := ∀ (i : NodeId) (d : Derivs F), h[i]? = some (LC.dict d) → h'[i]? = some (LC.dict d)

theorem Stays.refl (h : Heap F) : Stays h h := fun _ _ hi => hi

theorem Stays.trans {h h' h'' : Heap F} (a : Stays h h') (b : Stays h' h'') : Stays h h'' :=
  fun i d hi => b i d (a i d hi)

theorem Stays.append (h l : Heap F) : Stays h (h ++ l) := by
  intro i d hi
  rw [List.getElem?_append_left (List.getElem?_eq_some_iff.mp hi).1]
  exact hi

theorem expandLoop_stays (fuel : Nat) (h : Heap F) (i : NodeId) (d : Derivs F) (k : NodeId) (hk : k ≠ i) :
    (expandLoop fuel h i d).1[k]? = h[k]? := by
  induction fuel generalizing h d with
  | zero => rfl
  | succ n ih =>
    have key : (expandStep h i d).1[k]? = h[k]? := by
      unfold expandStep
      split
      · rfl
      · exact List.getElem?_set_ne hk.symm
      · rfl
      · exact List.getElem?_set_ne hk.symm
      · exact List.getElem?_set_ne hk.symm
      · simp only []
        split
        · exact List.getElem?_set_ne hk.symm
        · exact List.getElem?_set_ne hk.symm
        · split
          · simp only []
            rw [List.getElem?_set_ne hk.symm, List.getElem?_set_ne hk.symm]
          · simp only []
            rw [List.getElem?_set_ne hk.symm, List.getElem?_set_ne hk.symm]
    simp only [expandLoop]
    cases hs : expandStep h i d with
    | mk h1 o =>
      rw [hs] at key
      cases o with
      | done => exact key
      | raise e => exact key
      | go d' => exact (ih h1 d').trans key

theorem readDerivs_stays (h : Heap F) (i : NodeId) : Stays h (readDerivs h i).1 := by
  intro k d hk
  unfold readDerivs
  split
  · exact hk
  · exact hk
  · rename_i ts hi
    have hne : k ≠ i := by
      rintro rfl
      rw [hi] at hk; cases hk
    have := expandLoop_stays (fuelFor h i) h i [] k hne
    simp only [expand]
    cases hs : expandLoop (fuelFor h i) h i [] with
    | mk h1 r =>
      rw [hs] at this
      cases r with
      | error e => exact this.trans hk
      | ok u =>
        simp only []
        split <;> exact this.trans hk

theorem HSteps.stays {h h' : Heap F} (hs : HSteps h h') : Stays h h' := by
  induction hs with
  | refl => exact .refl _
  | read i _ ih => exact ih.trans (readDerivs_stays _ _)
  | alloc lc _ _ _ ih => exact ih.trans (.append _ _)

/-! ### Operations -/

theorem World.ufloat_stays (w : World F) (n s : F) (t : Option String) : Stays w.nodes (w.ufloat n s t).1.nodes := by
  unfold World.ufloat
  split
  · exact .refl _
  · exact .append _ _

theorem World.call_stays (w : World F) (fid : Nat) (args : List (Val F)) (kwargs : List (String × Val F)) :
    Stays w.nodes (w.call fid args kwargs).1.nodes := by
  unfold World.call
  split
  · exact .refl _
  · split
    · exact .refl _
    · exact .refl _
    · exact .append _ _

theorem World.toAffine_stays (w : World F) (x : Val F) : Stays w.nodes (w.toAffine x).1.nodes := (w.toAffine_h x).stays

theorem copyVarMemo_stays (share : Bool) (w : World F) (m : Memo) (v : VarId) :
    Stays w.nodes (copyVarMemo share w m v).1.nodes := by
  unfold copyVarMemo
  split
  · exact .refl _
  · split
    · exact .refl _
    · rename_i cell _
      split
      · split
        · split
          · exact .append _ _
          · exact .refl _
        · exact .refl _
      · have := w.ufloat_stays cell.nom cell.std cell.tag
        split
        · rename_i h1; rw [h1] at this; exact this
        · rename_i h1; rw [h1] at this; split <;> exact this

theorem copyDict_stays (share : Bool) (d : Derivs F) (w : World F) (m : Memo) :
    Stays w.nodes (copyDict share d w m).1.nodes := by
  induction d generalizing w m with
  | nil => exact .refl _
  | cons p d ih =>
    obtain ⟨v, x⟩ := p
    have h1 := copyVarMemo_stays share w m v
    simp only [copyDict]
    split
    · rename_i e; rw [e] at h1; exact h1
    · rename_i w1 m1 v1 e
      rw [e] at h1
      have h2 := ih w1 m1
      split <;> rename_i e2 <;> rw [e2] at h2 <;> exact h1.trans h2

theorem copyItems_stays (cp : NodeId → World F → Memo → World F × Memo × PyRes NodeId)
    (hcp : ∀ i w m, Stays w.nodes (cp i w m).1.nodes) (ts : List (Item F)) (w : World F) (m : Memo) :
    Stays w.nodes (copyItems cp ts w m).1.nodes := by
  induction ts generalizing w m with
  | nil => exact .refl _
  | cons t ts ih =>
    cases t with
    | junk =>
      have h1 := ih w m
      simp only [copyItems]
      split <;> rename_i e <;> rw [e] at h1 <;> exact h1
    | pair c j =>
      have h1 := ih w m
      simp only [copyItems]
      split
      · rename_i e; rw [e] at h1; exact h1
      · rename_i w1 m1 ts' e
        rw [e] at h1
        have h2 := hcp j w1 m1
        split <;> rename_i e2 <;> rw [e2] at h2 <;> exact h1.trans h2

theorem copyNode_stays (share : Bool) (fuel : Nat) (i : NodeId) (w : World F) (m : Memo) :
    Stays w.nodes (copyNode share fuel i w m).1.nodes := by
  induction fuel generalizing i w m with
  | zero => exact .refl _
  | succ n ih =>
    unfold copyNode
    split
    · exact .refl _
    · split
      · exact .refl _
      · rename_i d _
        have h1 := copyDict_stays share d w m
        split
        · rename_i e; rw [e] at h1; exact h1
        · rename_i w1 m1 d' e
          rw [e] at h1
          split
          · exact h1
          · exact h1.trans (.append _ _)
      · rename_i ts _
        have h1 := copyItems_stays (copyNode share n) (fun i w m => ih i w m) ts w m
        split
        · rename_i e; rw [e] at h1; exact h1
        · rename_i w1 m1 d' e
          rw [e] at h1
          exact h1.trans (.append _ _)

theorem World.copyVar_stays (w : World F) (v : VarId) : Stays w.nodes (w.copyVar v).1.nodes := by
  unfold World.copyVar
  split
  · exact .refl _
  · exact w.ufloat_stays _ _ _

theorem World.copy_stays (w : World F) (u : UF F) : Stays w.nodes (w.copy u).1.nodes := by
  unfold World.copy
  split
  · exact w.copyVar_stays _
  · exact .refl _

theorem World.deepcopy_stays (w : World F) (u : UF F) : Stays w.nodes (w.deepcopy u).1.nodes := by
  unfold World.deepcopy
  split
  · exact w.copyVar_stays _
  · have := copyNode_stays false (u.lin + 1) u.lin w Memo.empty
    split <;> rename_i e <;> rw [e] at this <;> exact this

theorem pickleOne_stays (w : World F) (m : Memo) (u : UF F) : Stays w.nodes (pickleOne w m u).1.nodes := by
  unfold pickleOne
  split
  · rename_i v _
    have := copyVarMemo_stays true w m v
    split
    · rename_i e; rw [e] at this; exact this
    · rename_i e; rw [e] at this; split <;> exact this
  · have := copyNode_stays true (u.lin + 1) u.lin w m
    split <;> rename_i e <;> rw [e] at this <;> exact this

theorem pickleList_stays (us : List (UF F)) (w : World F) (m : Memo) : Stays w.nodes (pickleList us w m).1.nodes := by
  induction us generalizing w m with
  | nil => exact .refl _
  | cons u us ih =>
    have h1 := pickleOne_stays w m u
    simp only [pickleList]
    split
    · rename_i e; rw [e] at h1; exact h1
    · rename_i w1 m1 u' e
      rw [e] at h1
      have h2 := ih w1 m1
      split <;> rename_i e2 <;> rw [e2] at h2 <;> exact h1.trans h2

end floats

section math
variable {F : Type} [PyMath F]

theorem World.binop_stays (w : World F) (op : BinOp) (a b : Val F) : Stays w.nodes (w.binop op a b).1.nodes := by
  have refl : ∀ w1 : World F, Stays w.nodes w1.nodes → Stays w.nodes (match b with
      | .plain _ => (w1, (.error .typeError : PyRes (Val F)))
      | .unc _ =>
        match w1.call op.rid [b, a] [] with
        | (w2, .ok (.plain .notImpl)) => (w2, .error .typeError)
        | r => r).1.nodes := by
    intro w1 h1
    cases b with
    | plain v => exact h1
    | unc v =>
      have h2 := w1.call_stays op.rid [.unc v, a] []
      simp only []
      split
      · rename_i e; rw [e] at h2; exact h1.trans h2
      · exact h1.trans h2
  cases a with
  | plain v => exact refl w (.refl _)
  | unc v =>
    have h1 := w.call_stays op.id [.unc v, b] []
    simp only [World.binop]
    split
    · rename_i w1 e
      rw [e] at h1
      exact refl w1 h1
    · exact h1

theorem World.modf_stays (w : World F) (x : Val F) : Stays w.nodes (w.modf x).1.nodes := by
  have h1 := w.toAffine_stays x
  unfold World.modf
  split
  · rename_i e; rw [e] at h1; exact h1
  · rename_i e; rw [e] at h1; exact h1
  · rename_i e
    rw [e] at h1
    simp only []
    split <;> exact h1

theorem World.ldexp_stays (w : World F) (x : Val F) (i : Int) : Stays w.nodes (w.ldexp x i).1.nodes := by
  have h1 := w.toAffine_stays x
  unfold World.ldexp
  split
  · rename_i e; rw [e] at h1; exact h1
  · rename_i e; rw [e] at h1; exact h1
  · rename_i e
    rw [e] at h1
    split
    · exact h1
    · split
      · exact h1
      · exact h1.trans (.append _ _)
    · split
      · split <;> exact h1
      · exact h1

theorem Machine.bind_stays {h : Heap F} (env : List (Option (Val F))) (w : World F) (r : PyRes (Val F)) (hs : Stays h w.nodes) :
    Stays h (Machine.bind env w r).1.w.nodes := by
  unfold Machine.bind
  split <;> exact hs

theorem Machine.read_stays (m : Machine F) (x : Arg F) (f : World F → UF F → World F × PyRes (Out F))
    (hf : ∀ w u, Stays w.nodes (f w u).1.nodes) : Stays m.w.nodes (m.read x f).1.w.nodes := by
  unfold Machine.read
  split
  · exact .refl _
  · rename_i u _
    have := hf m.w u
    split <;> rename_i e <;> rw [e] at this <;> exact this

theorem World.assignStd_nodes (w : World F) (u : UF F) (s : F) : (w.assignStd u s).1.nodes = w.nodes := by
  unfold World.assignStd World.setStd
  split
  · rfl
  · split
    · rfl
    · split <;> rfl

/-- Every command. -/
theorem Machine.step_stays {m : Machine F} (h : MShape m) (c : Cmd F) : Stays m.w.nodes (m.step c).1.w.nodes := by
  cases hc : c.isRead with
  | true => exact (Machine.step_h h c hc).stays
  | false =>
    cases c with
    | ufloat n s tag =>
      have := m.w.ufloat_stays n s tag
      simp only [Machine.step]
      split <;> rename_i e <;> rw [e] at this <;> exact this
    | affine n items =>
      simp only [Machine.step]
      split
      · exact .refl _
      · split
        · exact .append _ _
        · exact .refl _
    | wrap df => exact .refl _
    | call f args kwargs =>
      simp only [Machine.step]
      split
      · split
        · exact Machine.bind_stays _ _ _ (m.w.call_stays _ _ _)
        · exact .refl _
      · exact .refl _
    | unop op x =>
      simp only [Machine.step]
      split
      · exact .refl _
      · exact Machine.bind_stays _ _ _ (m.w.call_stays _ _ _)
    | binop op x y =>
      simp only [Machine.step]
      split
      · split
        · exact Machine.bind_stays _ _ _ (m.w.binop_stays _ _ _)
        · exact .refl _
      · exact .refl _
    | modf x =>
      simp only [Machine.step]
      split
      · exact .refl _
      · split
        · exact .refl _
        · rename_i v _ _
          have := m.w.modf_stays v
          split <;> rename_i e <;> rw [e] at this <;> exact this
    | ldexp x i =>
      simp only [Machine.step]
      split
      · exact .refl _
      · split
        · exact .refl _
        · exact Machine.bind_stays _ _ _ (m.w.ldexp_stays _ _)
    | lcst f args kwargs =>
      simp only [Machine.step]
      split
      · exact Machine.bind_stays _ _ _ (.refl _)
      · exact .refl _
    | copy x =>
      simp only [Machine.step]
      split
      · exact .refl _
      · rename_i u _
        have := m.w.copy_stays u
        split <;> rename_i e <;> rw [e] at this <;> exact this
    | deepcopy x =>
      simp only [Machine.step]
      split
      · exact .refl _
      · rename_i u _
        have := m.w.deepcopy_stays u
        split <;> rename_i e <;> rw [e] at this <;> exact this
    | pickle xs =>
      simp only [Machine.step]
      split
      · exact .refl _
      · rename_i us _
        have := pickleList_stays us m.w Memo.empty
        simp only [World.pickle]
        split <;> rename_i e <;> rw [e] at this <;> exact this
    | «variable» x v =>
      simp only [Machine.step]
      split
      · exact .refl _
      · rename_i u _
        have := (m.w.variable_h u v).stays
        split <;> rename_i e <;> rw [e] at this <;> exact this
    | setStd x s =>
      refine Machine.read_stays m x _ (fun w u => ?_)
      have : (mapRes (fun _ => (Out.done : Out F)) (w.assignStd u s)).1.nodes = w.nodes := w.assignStd_nodes u s
      rw [this]
      exact .refl _
    | _ => cases hc

theorem Machine.bind_env (env : List (Option (Val F))) (w : World F) (r : PyRes (Val F)) :
    ∃ l, (Machine.bind env w r).1.env = env ++ l := by
  unfold Machine.bind
  split <;> exact ⟨_, rfl⟩

theorem Machine.read_env (m : Machine F) (x : Arg F) (f : World F → UF F → World F × PyRes (Out F)) :
    ∃ l, (m.read x f).1.env = m.env ++ l := by
  unfold Machine.read
  split
  · exact ⟨_, rfl⟩
  · split <;> exact ⟨[], by simp⟩

/-- Names are never reused. -/
theorem Machine.step_env (m : Machine F) (c : Cmd F) : ∃ l, (m.step c).1.env = m.env ++ l := by
  cases c <;> simp only [Machine.step] <;>
    repeat' first
      | exact Machine.bind_env _ _ _
      | exact Machine.read_env _ _ _
      | exact ⟨_, rfl⟩
      | exact ⟨[], (List.append_nil _).symm⟩
      | split

/-- What was calculated for a number with uncertainty stays the same, whatever happens afterwards. -/
theorem dict_stays [Halts F] {cs : List (Cmd F)} {k : Nat} {u : UF F} {d : Derivs F}
    (hu : (Arg.ref k : Arg F).evalUnc (after cs).env = some u) (hd : (after cs).w.nodes[u.lin]? = some (.dict d)) (cs' : List (Cmd F)) :
    (Arg.ref k : Arg F).evalUnc (after (cs ++ cs')).env = some u ∧
      (after (cs ++ cs')).w.nodes[u.lin]? = some (.dict d) := by
  induction cs' using List.reverseRecOn with
  | nil => simpa using ⟨hu, hd⟩
  | append_singleton cs' c ih =>
    rw [← List.append_assoc, after_snoc']
    refine ⟨?_, Machine.step_stays (MShape.after _) c _ _ ih.2⟩
    obtain ⟨l, hl⟩ := (after (cs ++ cs')).step_env c
    have h1 := ih.1
    simp only [Arg.evalUnc, Arg.eval] at h1 ⊢
    rw [hl]
    cases hg : (after (cs ++ cs')).env[k]? with
    | none => rw [hg] at h1; simp at h1
    | some o =>
      rw [List.getElem?_append_left (List.getElem?_eq_some_iff.mp hg).1, hg]
      rw [hg] at h1
      exact h1

end math

end Unc
