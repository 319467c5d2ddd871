import Verif.Lemmas.Shape4

/-
What the operations do to the heap of linear combinations, for any float semantics: they read objects
(which can expand them) and create objects; nothing else.
-/

namespace Unc

set_option linter.unusedSectionVars false
set_option autoImplicit false

section floats
variable {F : Type} [PyFloat F]

/-- The heap `h'` is obtained from `h` by reading and creating objects. -/
inductive HSteps : Heap F → Heap F → Prop
  | refl (h : Heap F) : HSteps h h
  | read {h h' : Heap F} (i : NodeId) (hs : HSteps h h') : HSteps h (readDerivs h' i).1
  | alloc {h h' : Heap F} (lc : LC F) (hs : HSteps h h')
      (ht : ∀ ts, lc = .terms ts → ItemsBelow h'.length ts)
      (hd : ∀ d, lc = .dict d → KeysNodup d) : HSteps h (h' ++ [lc])

theorem HSteps.trans {h h' h'' : Heap F} (a : HSteps h h') (b : HSteps h' h'') : HSteps h h'' := by
  induction b with
  | refl => exact a
  | read i _ ih => exact .read i ih
  | alloc lc _ ht hd ih => exact .alloc lc ih ht hd

theorem World.derivatives_h (w : World F) (u : UF F) :
    HSteps w.nodes (w.derivatives u).1.nodes := .read u.lin (.refl _)

theorem World.errorComponents_h (w : World F) (u : UF F) :
    HSteps w.nodes (w.errorComponents u).1.nodes := by
  have := w.derivatives_h u
  unfold World.errorComponents
  split <;> rename_i h1 <;> rw [h1] at this <;> exact this

theorem World.affStdDev_h (w : World F) (u : UF F) : HSteps w.nodes (w.affStdDev u).1.nodes := by
  have := w.errorComponents_h u
  unfold World.affStdDev
  split
  · rename_i h1; rw [h1] at this; exact this
  · rename_i h1; rw [h1] at this; split <;> exact this

theorem World.stdDev_h (w : World F) (u : UF F) : HSteps w.nodes (w.stdDev u).1.nodes := by
  unfold World.stdDev
  split
  · exact w.affStdDev_h u
  · split <;> exact .refl _

theorem World.stdDevOf_h (w : World F) (x : Val F) : HSteps w.nodes (w.stdDevOf x).1.nodes := by
  cases x with
  | unc u => exact w.stdDev_h u
  | plain v => exact .refl _

theorem World.stdScore_h (w : World F) (u : UF F) (x : F) :
    HSteps w.nodes (w.stdScore u x).1.nodes := by
  have := w.stdDev_h u
  unfold World.stdScore
  split
  · rename_i h1; rw [h1] at this; exact this
  · rename_i h1; rw [h1] at this; exact this
  · rename_i h1; rw [h1] at this; split <;> exact this

theorem World.covRow_h (d1 : Derivs F) (us : List (UF F)) (w : World F) :
    HSteps w.nodes (World.covRow d1 us w).1.nodes := by
  induction us generalizing w with
  | nil => exact .refl _
  | cons u us ih =>
    have := w.derivatives_h u
    unfold World.covRow
    split
    · rename_i h1; rw [h1] at this; exact this
    · rename_i w1 d2 h1
      rw [h1] at this
      split
      · exact this
      · have k := this.trans (ih w1)
        split <;> rename_i h2 <;> rw [h2] at k <;> exact k

theorem World.covRows_h (us done : List (UF F)) (w : World F) :
    HSteps w.nodes (World.covRows done us w).1.nodes := by
  induction us generalizing w done with
  | nil => exact .refl _
  | cons u us ih =>
    have := w.derivatives_h u
    unfold World.covRows
    split
    · rename_i h1; rw [h1] at this; exact this
    · rename_i w1 d1 h1
      rw [h1] at this
      have k := this.trans (World.covRow_h d1 (done ++ [u]) w1)
      split
      · rename_i h2; rw [h2] at k; exact k
      · rename_i w2 row h2
        rw [h2] at k
        have k' := k.trans (ih (done ++ [u]) w2)
        split <;> rename_i h3 <;> rw [h3] at k' <;> exact k'

theorem World.covarianceMatrix_h (us : List (UF F)) (w : World F) :
    HSteps w.nodes (w.covarianceMatrix us).1.nodes := by
  have := World.covRows_h us [] w
  unfold World.covarianceMatrix
  split <;> rename_i h1 <;> rw [h1] at this <;> exact this

theorem World.toAffine_h (w : World F) (x : Val F) : HSteps w.nodes (w.toAffine x).1.nodes := by
  unfold World.toAffine
  split
  · exact .refl _
  · exact .alloc (.dict []) (.refl _) (fun ts h => by cases h)
      (fun d h => by cases h; exact List.nodup_nil)
  · exact .refl _
  · exact .refl _
  · exact .refl _

/-- The terms of a call refer to existing objects. -/
theorem callTerms_below {w : World F} {wf wf' : Wrapped F} (hwf : wf.OK) {args : List (Val F)}
    {kwargs : List (String × Val F)} (hargs : ∀ a ∈ args, a.Valid w)
    (hkw : ∀ p ∈ kwargs, p.2.Valid w) {x : F} {ts : List (Item F)}
    (h : callTerms wf args kwargs = (wf', .ok (.inr (x, ts)))) : ItemsBelow w.nodes.length ts := by
  simp only [callTerms] at h
  split at h
  · split at h <;> simp at h
  · split at h
    · simp at h
    · split at h
      · simp at h
      · obtain ⟨wf1, r1, a1, a2, a3, a4, -⟩ := posTerms_shape w (args.map Val.nominal)
          (kwargs.map (fun p => (p.1, p.2.nominal))) args 0 wf [] hwf hargs (by intro t ht; cases ht)
        rw [a1] at h
        cases r1 with
        | error e => simp at h
        | ok acc =>
          simp only at h
          obtain ⟨wf2, r2, c1, c2, c3, c4, -⟩ := kwTerms_shape w (args.map Val.nominal)
            (kwargs.map (fun p => (p.1, p.2.nominal))) kwargs wf1 acc a2 hkw (a4 acc rfl)
          rw [c1] at h
          cases r2 with
          | error e => simp at h
          | ok acc2 =>
            simp only at h
            split at h
            · simp at h
            · simp only [Prod.mk.injEq, Except.ok.injEq, Sum.inr.injEq] at h
              rw [← h.2.2]
              exact c4 acc2 rfl

theorem World.call_h {w : World F} (hs : Shape w) (fid : Nat) {args : List (Val F)}
    {kwargs : List (String × Val F)} (hargs : ∀ a ∈ args, a.Valid w)
    (hkw : ∀ p ∈ kwargs, p.2.Valid w) : HSteps w.nodes (w.call fid args kwargs).1.nodes := by
  unfold World.call
  split
  · exact .refl _
  · rename_i wf hg
    split
    · exact .refl _
    · exact .refl _
    · rename_i h1
      refine .alloc _ (.refl _) (fun ts h => ?_) (fun d h => by cases h)
      cases h
      exact callTerms_below (hs.wraps fid wf hg) hargs hkw h1

end floats

section ops
variable {F : Type} [PyOps F]

theorem World.eqAff_h {w : World F} (h : Shape w) (ho : HasOps w) {x y : UF F} (hx : x.Valid w)
    (hy : y.Valid w) : HSteps w.nodes (w.eqAff BinOp.sub.id x y).1.nodes := by
  have hc := World.call_h h BinOp.sub.id (args := [.unc x, .unc y]) (kwargs := []) (by
      intro a ha
      simp only [List.mem_cons, List.not_mem_nil, or_false] at ha
      rcases ha with rfl | rfl
      · exact hx
      · exact hy) (by simp)
  obtain ⟨w1, u, h1, h2, h3, -⟩ := World.sub_shape h ho hx hy
  rw [h1] at hc
  simp only [World.eqAff, h1]
  split
  · exact hc
  · have := hc.trans (w1.stdDev_h u)
    split <;> rename_i h2 <;> rw [h2] at this <;> exact this

theorem World.cmpAff_h {w : World F} (h : Shape w) (ho : HasOps w) (op : CmpOp) {x y : UF F}
    (hx : x.Valid w) (hy : y.Valid w) : HSteps w.nodes (w.cmpAff BinOp.sub.id op x y).1.nodes := by
  have := World.eqAff_h h ho hx hy
  cases op with
  | eq => exact this
  | ne =>
    simp only [World.cmpAff, World.neAff]
    split <;> rename_i h2 <;> rw [h2] at this <;> exact this
  | gt => exact .refl _
  | lt => exact .refl _
  | ge =>
    simp only [World.cmpAff, World.geAff, World.gtAff]
    cases PyFloat.ltb y.nom x.nom with
    | true => exact .refl _
    | false => exact this
  | le =>
    simp only [World.cmpAff, World.leAff, World.ltAff]
    cases PyFloat.ltb x.nom y.nom with
    | true => exact .refl _
    | false => exact this

theorem World.cmp_h {w : World F} (h : Shape w) (ho : HasOps w) (op : CmpOp) {x : UF F} {y : Val F}
    (hx : x.Valid w) (hy : y.Valid w) : HSteps w.nodes (w.cmp BinOp.sub.id op x y).1.nodes := by
  obtain ⟨w1, r, h1, h2, h3, h4⟩ := World.toAffine_shape h hy
  have k := w.toAffine_h y
  rw [h1] at k
  simp only [World.cmp, h1]
  cases r with
  | error e => exact k
  | ok o =>
    cases o with
    | none => exact k
    | some y' =>
      obtain ⟨hy', -⟩ := h4 y' rfl
      have k' := k.trans (World.cmpAff_h h2.shape (ho.of_fns h2.fns) op (hx.grows h2.grows) hy')
      simp only []
      split <;> rename_i h5 <;> rw [h5] at k' <;> exact k'

theorem World.toBool_h {w : World F} (h : Shape w) (ho : HasOps w) {x : UF F} (hx : x.Valid w) :
    HSteps w.nodes (w.toBool BinOp.sub.id x).1.nodes := by
  have := World.cmp_h h ho .ne hx (y := .plain (.flt 0)) trivial
  unfold World.toBool
  split <;> rename_i h2 <;> rw [h2] at this <;> exact this

end ops

section math
variable {F : Type} [PyMath F]

theorem World.cmpRun_h {w : World F} (h : Shape w) (ho : HasOps w) (op : CmpOp) {x : UF F} {y : Val F}
    (hx : x.Valid w) (hy : y.Valid w) : HSteps w.nodes (w.cmpRun op x y).1.nodes := by
  have := World.cmp_h h ho op hx hy
  unfold World.cmpRun
  split <;> rename_i h2 <;> rw [h2] at this <;> exact this

theorem World.compare_h {w : World F} (h : Shape w) (ho : HasOps w) (op : CmpOp) {x y : Val F}
    (hx : x.Valid w) (hy : y.Valid w) : HSteps w.nodes (w.compare op x y).1.nodes := by
  cases x with
  | unc a =>
    cases y with
    | unc b =>
      simp only [World.compare]
      split
      · exact World.cmpRun_h h ho _ hy hx
      · exact World.cmpRun_h h ho _ hx hy
    | plain v => exact World.cmpRun_h h ho _ hx hy
  | plain v =>
    cases y with
    | unc b => exact World.cmpRun_h h ho _ hy hx
    | plain v => exact .refl _

theorem World.variable_h (w : World F) (u : UF F) (v : VarId) :
    HSteps w.nodes (w.variable u v).1.nodes := by
  have := w.derivatives_h u
  unfold World.variable
  split
  · rename_i h1; rw [h1] at this; exact this
  · rename_i h1; rw [h1] at this
    split
    · exact this
    · split <;> exact this

theorem World.tag_h (w : World F) (u : UF F) : HSteps w.nodes (w.tag u).1.nodes := by
  unfold World.tag
  split
  · exact .refl _
  · split <;> exact .refl _

theorem Machine.read_h (m : Machine F) (x : Arg F) {α : Type}
    (f : World F → UF F → World F × PyRes α) (g : α → Out F)
    (hf : ∀ u, x.evalUnc m.env = some u → HSteps m.w.nodes (f m.w u).1.nodes) :
    HSteps m.w.nodes (m.read x (fun w u => mapRes g (f w u))).1.w.nodes := by
  simp only [Machine.read]
  cases hx : x.evalUnc m.env with
  | none => exact .refl _
  | some u =>
    have := hf u hx
    simp only [mapRes]
    revert this
    generalize f m.w u = r
    obtain ⟨w', r⟩ := r
    intro this
    cases r <;> exact this

/-- Reading commands. -/
theorem Machine.step_h {m : Machine F} (h : MShape m) (c : Cmd F) (hc : c.isRead = true) :
    HSteps m.w.nodes (m.step c).1.w.nodes := by
  cases c <;> simp only [Cmd.isRead, Bool.false_eq_true] at hc
  case nominal x =>
    simp only [Machine.step]
    split <;> exact .refl _
  case stdDev x =>
    simp only [Machine.step]
    split
    · exact .refl _
    · rename_i v _
      have := m.w.stdDevOf_h v
      split <;> rename_i h2 <;> rw [h2] at this <;> exact this
  case s x => exact Machine.read_h m x _ _ (fun u _ => m.w.affStdDev_h u)
  case derivatives x => exact Machine.read_h m x _ _ (fun u _ => m.w.derivatives_h u)
  case errorComponents x => exact Machine.read_h m x _ _ (fun u _ => m.w.errorComponents_h u)
  case stdScore x v =>
    exact Machine.read_h m x (fun w u => w.stdScore u v) _ (fun u _ => m.w.stdScore_h u v)
  case covarianceMatrix xs =>
    simp only [Machine.step]
    split
    · exact .refl _
    · rename_i us _
      have := World.covarianceMatrix_h us m.w
      split <;> rename_i h2 <;> rw [h2] at this <;> exact this
  case compare op x y =>
    simp only [Machine.step]
    split
    · rename_i a b ha hb
      split
      · have := World.compare_h h.shape h.ops op (h.eval ha) (h.eval hb)
        split <;> rename_i h2 <;> rw [h2] at this <;> exact this
      · exact .refl _
    · exact .refl _
  case toBool x =>
    exact Machine.read_h m x (fun w u => w.toBool BinOp.sub.id u) _
      (fun u hu => World.toBool_h h.shape h.ops (h.evalUnc hu))
  case tag x => exact Machine.read_h m x _ _ (fun u _ => m.w.tag_h u)

end math

end Unc
