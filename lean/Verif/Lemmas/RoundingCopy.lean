import Verif.Lemmas.Copy
import Verif.Lemmas.RoundingMachine
import Verif.Spec.RoundingCopy

/-
Copies, with rounded floats.
-/

namespace Unc

set_option linter.unusedSectionVars false
set_option autoImplicit false

/-! ### Renamings -/

theorem GRenames.mono {ρ ρ' : List (VarId × VarId)} (h : ∀ p ∈ ρ, p ∈ ρ') {l l' : Grad}
    (hr : Renames ρ l l') : Renames ρ' l l' := by
  refine ⟨fun v x hx => ?_, fun v x hx => ?_⟩
  · obtain ⟨v', h1, h2⟩ := hr.forth v x hx; exact ⟨v', h _ h1, h2⟩
  · obtain ⟨v', h1, h2⟩ := hr.back v x hx; exact ⟨v', h _ h1, h2⟩

theorem GRenames.zero (ρ : List (VarId × VarId)) : Renames ρ Grad.zero Grad.zero :=
  ⟨fun v x hx => (by cases hx), fun v x hx => (by cases hx)⟩

theorem GRenames.eq {ρ : List (VarId × VarId)} (ho : OneToOne ρ) {l l' : Grad}
    (hr : Renames ρ l l') {v v' : VarId} (h : (v, v') ∈ ρ) : l' v' = l v := by
  cases hl : l v with
  | some x =>
    obtain ⟨u, h1, h2⟩ := hr.forth v x hl
    rw [ho.left v v' u h h1]; exact h2
  | none =>
    cases hl' : l' v' with
    | none => rfl
    | some x =>
      obtain ⟨u, h1, h2⟩ := hr.back v' x hl'
      rw [ho.right v' v u h h1, h2] at hl
      cases hl

theorem GRenames.add {ρ : List (VarId × VarId)} (ho : OneToOne ρ) {a a' b b' : Grad}
    (ha : Renames ρ a a') (hb : Renames ρ b b') : Renames ρ (Grad.add a b) (Grad.add a' b') := by
  refine ⟨fun v x hx => ?_, fun v x hx => ?_⟩
  · have : ∃ v', (v, v') ∈ ρ := by
      cases h1 : a v with
      | some y => obtain ⟨v', h, -⟩ := ha.forth v y h1; exact ⟨v', h⟩
      | none =>
        cases h2 : b v with
        | some y => obtain ⟨v', h, -⟩ := hb.forth v y h2; exact ⟨v', h⟩
        | none => simp [Grad.add, h1, h2, infoAdd] at hx
    obtain ⟨v', h⟩ := this
    refine ⟨v', h, ?_⟩
    simp only [Grad.add] at hx ⊢
    rw [GRenames.eq ho ha h, GRenames.eq ho hb h]; exact hx
  · have : ∃ v', (v', v) ∈ ρ := by
      cases h1 : a' v with
      | some y => obtain ⟨v', h, -⟩ := ha.back v y h1; exact ⟨v', h⟩
      | none =>
        cases h2 : b' v with
        | some y => obtain ⟨v', h, -⟩ := hb.back v y h2; exact ⟨v', h⟩
        | none => simp [Grad.add, h1, h2, infoAdd] at hx
    obtain ⟨v', h⟩ := this
    refine ⟨v', h, ?_⟩
    simp only [Grad.add] at hx ⊢
    rw [← GRenames.eq ho ha h, ← GRenames.eq ho hb h]; exact hx

theorem GRenames.single {ρ : List (VarId × VarId)} {v v' : VarId} (h : (v, v') ∈ ρ) :
    Renames ρ (Grad.single v) (Grad.single v') := by
  refine ⟨fun x y hx => ?_, fun x y hx => ?_⟩
  · simp only [Grad.single] at hx
    split at hx
    · rename_i hxv; subst hxv; exact ⟨_, h, by simpa [Grad.single] using hx⟩
    · cases hx
  · simp only [Grad.single] at hx
    split at hx
    · rename_i hxv; subst hxv; exact ⟨_, h, by simpa [Grad.single] using hx⟩
    · cases hx

/-- Derivatives, in terms of the renamed variables. -/
def Grad.rename (ρ : List (VarId × VarId)) (l : Grad) : Grad := fun v' =>
  match ρ.find? (fun p => p.2 == v') with
  | some p => l p.1
  | none => none

theorem Grad.rename_eq {ρ : List (VarId × VarId)} (ho : OneToOne ρ) (l : Grad) {v v' : VarId}
    (h : (v, v') ∈ ρ) : Grad.rename ρ l v' = l v := by
  unfold Grad.rename
  cases hf : ρ.find? (fun p => p.2 == v') with
  | none =>
    rw [List.find?_eq_none] at hf
    have := hf _ h
    simp at this
  | some p =>
    have h1 := List.mem_of_find?_eq_some hf
    have h2 := List.find?_some hf
    have h2' : p.2 = v' := by simpa using h2
    obtain ⟨a, b⟩ := p
    simp only at h2'
    subst h2'
    simp only
    rw [ho.right b a v h1 h]

theorem Grad.rename_some {ρ : List (VarId × VarId)} {l : Grad} {v' : VarId} {I : Info}
    (h : Grad.rename ρ l v' = some I) : ∃ v, (v, v') ∈ ρ ∧ l v = some I := by
  unfold Grad.rename at h
  cases hf : ρ.find? (fun p => p.2 == v') with
  | none => rw [hf] at h; cases h
  | some p =>
    rw [hf] at h
    have h1 := List.mem_of_find?_eq_some hf
    have h2 := List.find?_some hf
    have h2' : p.2 = v' := by simpa using h2
    obtain ⟨a, b⟩ := p
    simp only at h2'
    subst h2'
    exact ⟨a, h1, h⟩

theorem Grad.rename_ok {ρ : List (VarId × VarId)} {l : Grad} (h : l.OK) : (Grad.rename ρ l).OK := by
  intro v I hI
  obtain ⟨u, -, hu⟩ := Grad.rename_some hI
  exact h u I hu

section floats
variable {F : Type} [PyOps F] [Rounded F]

theorem GRenames.smul {ρ : List (VarId × VarId)} {l l' : Grad} (hr : Renames ρ l l') (c : F) :
    Renames ρ (Grad.smul c l) (Grad.smul c l') := by
  refine ⟨fun v x hx => ?_, fun v x hx => ?_⟩
  · simp only [Grad.smul, Option.map_eq_some_iff] at hx
    obtain ⟨a, ha, rfl⟩ := hx
    obtain ⟨v', h1, h2⟩ := hr.forth v a ha
    exact ⟨v', h1, by simp [Grad.smul, h2]⟩
  · simp only [Grad.smul, Option.map_eq_some_iff] at hx
    obtain ⟨a, ha, rfl⟩ := hx
    obtain ⟨v', h1, h2⟩ := hr.back v a ha
    exact ⟨v', h1, by simp [Grad.smul, h2]⟩

/-! ### Variables -/

theorem RndInv.addVar {w : World F} {g : NodeId → Grad} (h : RndInv w g) (n std : F)
    (tag : Option String) (hb : specBadStd std = false) :
    RndInv ⟨w.nodes ++ [.dict [(w.vars.length, 1)]],
      w.vars ++ [{ nom := n, std := std, tag := tag, lin := w.nodes.length }], w.wraps⟩
      (rextend g w.nodes.length (Grad.single w.vars.length)) := by
  have hg := h.shape.addVar n std tag hb
  have hden : RDenotes (w.nodes ++ [LC.dict [(w.vars.length, (1 : F))]])
      (rextend g w.nodes.length (Grad.single w.vars.length)) := by
    refine h.den.alloc _ _ (Grad.OK.single _) ⟨by simp [KeysNodup], fun v => ?_⟩
    rw [rextend_self]
    exact DictOK.single _ _
  refine ⟨hg.shape, h.ops, hden, ?_⟩
  intro v cell hv
  simp only at hv
  by_cases hlt : v < w.vars.length
  · rw [List.getElem?_append_left hlt] at hv
    rw [rextend_lt (List.getElem?_eq_some_iff.mp (h.shape.vars v cell hv)).1]
    exact h.vlin v cell hv
  · have hl := (List.getElem?_eq_some_iff.mp hv).1
    have : v = w.vars.length := by simp at hl; omega
    subst this
    simp at hv
    subst hv
    exact rextend_self

/-! ### Invariant of the copy -/

/-- State in the course of a copy that started in state `w0`. -/
structure RCopyInv (w0 : World F) (g0 : NodeId → Grad) (w : World F) (g : NodeId → Grad)
    (m : Memo) : Prop where
  inv0 : RndInv w0 g0
  inv : RndInv w g
  grows : Grows w0 w
  agree : ∀ i, i < w0.nodes.length → g i = g0 i
  wraps : w.wraps = w0.wraps
  old : ∃ l, w.vars = w0.vars ++ l
  one : OneToOne m.vars
  fresh : ∀ v v', (v, v') ∈ m.vars → v < w0.vars.length ∧ w0.vars.length ≤ v' ∧
    v' < w.vars.length ∧ (w.vars[v']?).map VarCell.rabs = (w0.vars[v]?).map VarCell.rabs
  all : ∀ v', w0.vars.length ≤ v' → v' < w.vars.length → ∃ v, (v, v') ∈ m.vars
  nodes : ∀ i i', (i, i') ∈ m.nodes → i < w0.nodes.length ∧ i' < w.nodes.length ∧
    Renames m.vars (g0 i) (g i')

theorem RCopyInv.start {w : World F} {g : NodeId → Grad} (h : RndInv w g) :
    RCopyInv w g w g Memo.empty :=
  ⟨h, h, Grows.refl h.shape, fun _ _ => rfl, rfl, ⟨[], by simp⟩,
   ⟨by simp [Memo.empty], by simp [Memo.empty]⟩,
   by simp [Memo.empty], by intro v h1 h2; omega, by simp [Memo.empty]⟩

/-- Progress of a copy. -/
structure RCopyStep (w : World F) (g : NodeId → Grad) (m : Memo) (w' : World F)
    (g' : NodeId → Grad) (m' : Memo) : Prop where
  grows : Grows w w'
  agree : ∀ i, i < w.nodes.length → g' i = g i
  mvars : ∀ p ∈ m.vars, p ∈ m'.vars

theorem RCopyStep.refl {w : World F} {g : NodeId → Grad} {m : Memo} (h : RndInv w g) :
    RCopyStep w g m w g m := ⟨Grows.refl h.shape, fun _ _ => rfl, fun _ h => h⟩

theorem RCopyStep.trans {w w' w'' : World F} {g g' g'' : NodeId → Grad} {m m' m'' : Memo}
    (h : RCopyStep w g m w' g' m') (h' : RCopyStep w' g' m' w'' g'' m'') :
    RCopyStep w g m w'' g'' m'' :=
  ⟨h.grows.trans h'.grows,
   fun i hi => (h'.agree i (Nat.lt_of_lt_of_le hi h.grows.len)).trans (h.agree i hi),
   fun p hp => h'.mvars p (h.mvars p hp)⟩

/-- The world with a new variable, a copy of an existing one. -/
def World.withCopy (w : World F) (cell : VarCell F) : World F :=
  ⟨w.nodes ++ [.dict [(w.vars.length, 1)]], w.vars ++ [{ cell with lin := w.nodes.length }], w.wraps⟩

/-- Copy of a variable. -/
theorem RCopyInv.addVar {w0 w : World F} {g0 g : NodeId → Grad} {m : Memo}
    (h : RCopyInv w0 g0 w g m) {v : VarId} (hv : v < w0.vars.length) {cell : VarCell F}
    (hg : w.vars[v]? = some cell) (hl : m.vars.lookup v = none) (nm : List (NodeId × NodeId))
    (hnm : ∀ i i', (i, i') ∈ nm → (i, i') ∈ m.nodes ∨ (i = cell.lin ∧ i' = w.nodes.length)) :
    RCopyInv w0 g0 (w.withCopy cell) (rextend g w.nodes.length (Grad.single w.vars.length))
      ⟨nm, (v, w.vars.length) :: m.vars⟩ ∧
    RCopyStep w g m (w.withCopy cell) (rextend g w.nodes.length (Grad.single w.vars.length))
      ⟨nm, (v, w.vars.length) :: m.vars⟩ := by
  obtain ⟨old, hold⟩ := h.old
  have hstd := h.inv.shape.std v _ hg
  have hgr : Grows w (w.withCopy cell) := h.inv.shape.addVar cell.nom cell.std cell.tag hstd
  have hinv : RndInv (w.withCopy cell) (rextend g w.nodes.length (Grad.single w.vars.length)) :=
    h.inv.addVar cell.nom cell.std cell.tag hstd
  have hv0 : w0.vars[v]? = some cell := by rw [← hg, hold, List.getElem?_append_left hv]
  have hlen1 : (w.withCopy cell).vars.length = w.vars.length + 1 := by simp [World.withCopy]
  have hag : ∀ i, i < w.nodes.length →
      rextend g w.nodes.length (Grad.single w.vars.length) i = g i := fun i hi => rextend_lt hi
  refine ⟨⟨h.inv0, hinv, h.grows.trans hgr, ?_, h.wraps, ?_, ?_, ?_, ?_, ?_⟩,
    ⟨hgr, hag, fun p hp => List.mem_cons_of_mem _ hp⟩⟩
  · intro i hi
    rw [hag i (Nat.lt_of_lt_of_le hi h.grows.len)]
    exact h.agree i hi
  · exact ⟨old ++ [{ cell with lin := w.nodes.length }], by simp [World.withCopy, hold]⟩
  · refine ⟨fun x a b ha hb => ?_, fun x a b ha hb => ?_⟩
    · rcases List.mem_cons.mp ha with ha | ha <;> rcases List.mem_cons.mp hb with hb | hb
      · cases ha; cases hb; rfl
      · cases ha; exact absurd hb (lookup_none_not_mem hl b)
      · cases hb; exact absurd ha (lookup_none_not_mem hl a)
      · exact h.one.left x a b ha hb
    · rcases List.mem_cons.mp ha with ha | ha <;> rcases List.mem_cons.mp hb with hb | hb
      · cases ha; cases hb; rfl
      · cases ha; have := (h.fresh _ _ hb).2.2.1; omega
      · cases hb; have := (h.fresh _ _ ha).2.2.1; omega
      · exact h.one.right x a b ha hb
  · intro a b hab
    rcases List.mem_cons.mp hab with hab | hab
    · cases hab
      refine ⟨hv, by rw [hold]; simp, by omega, ?_⟩
      rw [hv0]
      simp [World.withCopy, VarCell.rabs]
    · obtain ⟨b1, b2, b3, b4⟩ := h.fresh a b hab
      refine ⟨b1, b2, by omega, ?_⟩
      rw [← b4]
      simp only [World.withCopy]
      rw [List.getElem?_append_left b3]
  · intro v' h1 h2
    by_cases hc : v' < w.vars.length
    · obtain ⟨x, hx⟩ := h.all v' h1 hc
      exact ⟨x, List.mem_cons_of_mem _ hx⟩
    · have : v' = w.vars.length := by omega
      subst this
      exact ⟨v, by simp⟩
  · intro i i' hi
    rcases hnm i i' hi with hi | ⟨rfl, rfl⟩
    · obtain ⟨b1, b2, b3⟩ := h.nodes i i' hi
      refine ⟨b1, Nat.lt_of_lt_of_le b2 hgr.len, ?_⟩
      rw [hag i' b2]
      exact GRenames.mono (fun p hp => List.mem_cons_of_mem _ hp) b3
    · have hlt := (List.getElem?_eq_some_iff.mp (h.inv0.shape.vars v cell hv0)).1
      refine ⟨hlt, by simp [World.withCopy], ?_⟩
      rw [rextend_self, h.inv0.vlin v cell hv0]
      exact GRenames.single List.mem_cons_self

theorem copyVarMemo_rounded {w0 w : World F} {g0 g : NodeId → Grad} {m : Memo} (share : Bool)
    (h : RCopyInv w0 g0 w g m) (v : VarId) (hv : v < w0.vars.length) :
    ∃ w' g' m' v', copyVarMemo share w m v = (w', m', .ok v') ∧ RCopyInv w0 g0 w' g' m' ∧
      RCopyStep w g m w' g' m' ∧ (v, v') ∈ m'.vars := by
  unfold copyVarMemo
  cases hl : m.vars.lookup v with
  | some v' =>
    exact ⟨w, g, m, v', rfl, h, RCopyStep.refl h.inv, mem_of_lookup hl⟩
  | none =>
    simp only []
    obtain ⟨old, hold⟩ := h.old
    have hvw : v < w.vars.length := by rw [hold]; simp; omega
    have hg : w.vars[v]? = some w.vars[v] := List.getElem?_eq_getElem hvw
    have hstd := h.inv.shape.std v _ hg
    generalize w.vars[v] = cell at hg hstd
    simp only [hg]
    cases share with
    | false =>
      have hb' : (PyFloat.ltb cell.std 0 && !PyFloat.isInf cell.std) = false := hstd
      obtain ⟨a1, a2⟩ := h.addVar hv hg hl m.nodes (fun i i' hi => Or.inl hi)
      refine ⟨_, _, _, w.vars.length, ?_, a1, a2, List.mem_cons_self⟩
      simp only [Bool.false_eq_true, if_false, World.ufloat, hb', World.alloc]
      rfl
    | true =>
      have hn := h.inv.shape.vars v cell hg
      obtain ⟨a1, a2⟩ := h.addVar hv hg hl ((cell.lin, w.nodes.length) :: m.nodes) (by
        intro i i' hi
        rcases List.mem_cons.mp hi with hi | hi
        · cases hi; exact Or.inr ⟨rfl, rfl⟩
        · exact Or.inl hi)
      refine ⟨_, _, _, w.vars.length, ?_, a1, a2, List.mem_cons_self⟩
      simp only [if_true, hn, World.alloc]
      rfl

theorem copyDict_rounded {w0 : World F} {g0 : NodeId → Grad} (share : Bool) (d : Derivs F)
    {w : World F} {g : NodeId → Grad} {m : Memo}
    (h : RCopyInv w0 g0 w g m) (hd : ∀ v ∈ d.map Prod.fst, v < w0.vars.length) :
    ∃ w' g' m' d', copyDict share d w m = (w', m', .ok d') ∧ RCopyInv w0 g0 w' g' m' ∧
      RCopyStep w g m w' g' m' ∧ DictRel m'.vars d d' := by
  induction d generalizing w g m with
  | nil => exact ⟨w, g, m, [], rfl, h, RCopyStep.refl h.inv, List.Forall₂.nil⟩
  | cons p d ih =>
    obtain ⟨v, x⟩ := p
    obtain ⟨w1, g1, m1, v', a1, a2, a3, a4⟩ := copyVarMemo_rounded share h v (hd v (by simp))
    obtain ⟨w2, g2, m2, d', b1, b2, b3, b4⟩ := ih a2 (fun u hu => hd u (by
      simp only [List.map_cons, List.mem_cons]; exact Or.inr hu))
    refine ⟨w2, g2, m2, (v', x) :: d', ?_, b2, a3.trans b3, ?_⟩
    · simp only [copyDict, a1, b1]
    · exact List.Forall₂.cons ⟨b3.mvars _ a4, rfl⟩ b4

/-- Specification of the copy of an object. -/
def RCopyOK (w0 : World F) (g0 : NodeId → Grad)
    (cp : NodeId → World F → Memo → World F × Memo × PyRes NodeId) (j : NodeId) : Prop :=
  ∀ (w : World F) (g : NodeId → Grad) (m : Memo), RCopyInv w0 g0 w g m →
    ∃ w' g' m' j', cp j w m = (w', m', .ok j') ∧ RCopyInv w0 g0 w' g' m' ∧
      RCopyStep w g m w' g' m' ∧ j' < w'.nodes.length ∧ Renames m'.vars (g0 j) (g' j')

theorem copyItems_rounded {w0 : World F} {g0 : NodeId → Grad}
    (cp : NodeId → World F → Memo → World F × Memo × PyRes NodeId) (i : NodeId)
    (hcp : ∀ j, j < i → RCopyOK w0 g0 cp j) (ts : List (Item F)) (hts : ItemsBelow i ts)
    {w : World F} {g : NodeId → Grad} {m : Memo} (h : RCopyInv w0 g0 w g m) :
    ∃ w' g' m' ts', copyItems cp ts w m = (w', m', .ok ts') ∧ RCopyInv w0 g0 w' g' m' ∧
      RCopyStep w g m w' g' m' ∧ ItemsBelow w'.nodes.length ts' ∧
      Renames m'.vars (gradItems g0 ts) (gradItems g' ts') := by
  induction ts with
  | nil =>
    exact ⟨w, g, m, [], rfl, h, RCopyStep.refl h.inv, (by intro t ht; cases ht), GRenames.zero _⟩
  | cons t ts ih =>
    obtain ⟨c, j, rfl, hj⟩ := hts t (by simp)
    obtain ⟨w1, g1, m1, ts', a1, a2, a3, a4, a5⟩ := ih (fun t ht => hts t (by simp [ht]))
    obtain ⟨w2, g2, m2, j', b1, b2, b3, b4, b5⟩ := hcp j hj w1 g1 m1 a2
    refine ⟨w2, g2, m2, .pair c j' :: ts', ?_, b2, a3.trans b3, ?_, ?_⟩
    · simp only [copyItems, a1, b1]
    · intro t ht
      rcases List.mem_cons.mp ht with ht | ht
      · exact ⟨c, j', ht, b4⟩
      · obtain ⟨c', k, hk, hlt⟩ := a4 t ht
        exact ⟨c', k, hk, Nat.lt_of_lt_of_le hlt b3.grows.len⟩
    · simp only [gradItems]
      refine GRenames.add b2.one (GRenames.smul b5 c) ?_
      rw [gradItems_congr a4 (fun k hk => b3.agree k hk)]
      exact GRenames.mono b3.mvars a5

/-- Adding a copied object to the memo. -/
theorem RCopyInv.addNode {w0 w : World F} {g0 g : NodeId → Grad} {m : Memo}
    (h : RCopyInv w0 g0 w g m) (i : NodeId) (hi : i < w0.nodes.length) (lc : LC F) (l : Grad)
    (hr : Reads w (w.alloc lc).1) (hl : l.OK)
    (hc : RCell (rextend g w.nodes.length l) w.nodes.length lc)
    (hn : Renames m.vars (g0 i) l) :
    RCopyInv w0 g0 (w.alloc lc).1 (rextend g w.nodes.length l)
      ⟨(i, w.nodes.length) :: m.nodes, m.vars⟩ ∧
    RCopyStep w g m (w.alloc lc).1 (rextend g w.nodes.length l)
      ⟨(i, w.nodes.length) :: m.nodes, m.vars⟩ := by
  have hag : ∀ j, j < w.nodes.length → rextend g w.nodes.length l j = g j := fun j hj => rextend_lt hj
  have hev := h.inv.ev hr (h.inv.den.alloc lc l hl hc) hag
  refine ⟨⟨h.inv0, hev.inv, h.grows.trans hr.grows, ?_, h.wraps, h.old, h.one, h.fresh, h.all, ?_⟩,
    ⟨hr.grows, hag, fun p hp => hp⟩⟩
  · intro j hj
    rw [hag j (Nat.lt_of_lt_of_le hj h.grows.len)]
    exact h.agree j hj
  · intro a b hab
    rcases List.mem_cons.mp hab with hab | hab
    · cases hab
      refine ⟨hi, by simp [World.alloc], ?_⟩
      rw [rextend_self]; exact hn
    · obtain ⟨b1, b2, b3⟩ := h.nodes a b hab
      refine ⟨b1, Nat.lt_of_lt_of_le b2 hr.len, ?_⟩
      rw [hag _ b2]; exact b3

theorem copyNode_rounded {w0 : World F} {g0 : NodeId → Grad} (share : Bool) (fuel : Nat)
    (i : NodeId) (hf : i < fuel) (hi : i < w0.nodes.length) :
    RCopyOK w0 g0 (copyNode share fuel) i := by
  induction fuel generalizing i with
  | zero => omega
  | succ fuel ih =>
    intro w g m h
    unfold copyNode
    cases hl : m.nodes.lookup i with
    | some i' =>
      obtain ⟨-, b2, b3⟩ := h.nodes i i' (mem_of_lookup hl)
      exact ⟨w, g, m, i', rfl, h, RCopyStep.refl h.inv, b2, b3⟩
    | none =>
      have hiw : i < w.nodes.length := Nat.lt_of_lt_of_le hi h.grows.len
      have hget := List.getElem?_eq_getElem hiw
      have hcell := h.inv.den.cell i _ hget
      have hgi : g i = g0 i := h.agree i hi
      simp only [hget]
      cases hlc : w.nodes[i] with
      | dict d =>
        rw [hlc] at hcell hget
        obtain ⟨hn, hd⟩ := hcell
        rw [hgi] at hd
        have hk : ∀ v ∈ d.map Prod.fst, v < w0.vars.length := by
          intro v hv
          obtain ⟨⟨v', x⟩, hp, rfl⟩ := List.mem_map.mp hv
          have : d.lookup v' ≠ none := by
            intro hc
            exact lookup_none_not_mem hc x hp
          obtain ⟨y, hy⟩ := Option.ne_none_iff_exists'.mp this
          refine h.inv0.keys hi (v := v') ?_
          rw [← (hd v').isSome, hy]
          rfl
        obtain ⟨w1, g1, m1, d', a1, a2, a3, a4⟩ := copyDict_rounded share d h hk
        simp only [a1]
        cases hl1 : m1.nodes.lookup i with
        | some i' =>
          obtain ⟨-, b2, b3⟩ := a2.nodes i i' (mem_of_lookup hl1)
          exact ⟨w1, g1, m1, i', rfl, a2, a3, b2, b3⟩
        | none =>
          have hr : Renames m1.vars (g0 i) (Grad.rename m1.vars (g0 i)) := by
            refine ⟨fun v I hI => ?_, fun v I hI => Grad.rename_some hI⟩
            have hs := (hd v).isSome
            rw [hI] at hs
            obtain ⟨x, hx⟩ := Option.isSome_iff_exists.mp hs
            obtain ⟨v', -, h2⟩ := a4.mem' (mem_keys_of_lookup hx)
            exact ⟨v', h2, by rw [Grad.rename_eq a2.one _ h2]; exact hI⟩
          have hcell' : RCell (rextend g1 w1.nodes.length (Grad.rename m1.vars (g0 i)))
              w1.nodes.length (.dict d') := by
            refine ⟨a4.nodup a2.one hn, fun v' => ?_⟩
            rw [rextend_self]
            cases hv' : d'.lookup v' with
            | some x =>
              obtain ⟨v, -, h2⟩ := a4.mem (mem_keys_of_lookup hv')
              rw [Grad.rename_eq a2.one _ h2, ← hv', a4.lookup a2.one h2]
              exact hd v
            | none =>
              cases hg' : Grad.rename m1.vars (g0 i) v' with
              | none => trivial
              | some I =>
                obtain ⟨v, h2, h3⟩ := Grad.rename_some hg'
                have := hd v
                rw [← a4.lookup a2.one h2, hv', h3] at this
                exact this
          have hkeys : ∀ v ∈ d'.map Prod.fst, v < w1.vars.length := by
            intro v hx
            obtain ⟨v0, -, hv0⟩ := a4.mem hx
            exact (a2.fresh v0 v hv0).2.2.1
          have hrd := a2.inv.shape.alloc (.dict d') (fun d hd => by cases hd; exact hkeys)
            (fun ts ht => by cases ht)
          obtain ⟨c1, c2⟩ := a2.addNode i hi (.dict d') _ hrd
            (Grad.rename_ok (h.inv0.den.ok i)) hcell' hr
          refine ⟨_, _, _, _, rfl, c1, a3.trans c2, by simp [World.alloc], ?_⟩
          simp only [World.alloc]
          rw [rextend_self]; exact hr
      | terms ts =>
        rw [hlc] at hcell hget
        obtain ⟨hb, hd⟩ := hcell
        have hd0 : gradItems g0 ts = g0 i := by
          rw [← hgi, ← hd]
          exact (gradItems_congr hb (fun j hj => h.agree j (by omega))).symm
        obtain ⟨w1, g1, m1, ts', a1, a2, a3, a4, a5⟩ := copyItems_rounded (copyNode share fuel) i
          (fun j hj => ih j (by omega) (by omega)) ts hb h
        simp only [a1]
        have hr : Renames m1.vars (g0 i) (gradItems g1 ts') := by rw [← hd0]; exact a5
        have hcell' : RCell (rextend g1 w1.nodes.length (gradItems g1 ts')) w1.nodes.length
            (.terms ts') := ⟨a4, by
              rw [rextend_self]; exact gradItems_congr a4 (fun k hk => rextend_lt hk)⟩
        have hrd := a2.inv.shape.alloc (.terms ts') (fun d hd => by cases hd)
          (fun ts ht => by cases ht; exact a4)
        obtain ⟨c1, c2⟩ := a2.addNode i hi (.terms ts') _ hrd (gradItems_ok a2.inv.den.ok ts') hcell' hr
        refine ⟨_, _, _, _, rfl, c1, a3.trans c2, by simp [World.alloc], ?_⟩
        simp only [World.alloc]
        rw [rextend_self]; exact hr

/-! ### Copies -/

/-- `q'` is the copy of `q`. -/
def RIsCopy (ρ : List (VarId × VarId)) (q q' : RQ F) : Prop :=
  q'.nom = q.nom ∧
    (∀ v I, q.grad v = some I → ∃ v', (v, v') ∈ ρ ∧ q'.grad v' = some I) ∧
    (∀ v' I, q'.grad v' = some I → ∃ v, (v, v') ∈ ρ ∧ q.grad v = some I) ∧
    (∀ v, q.var = some v → ∃ v', q'.var = some v' ∧ (v, v') ∈ ρ) ∧ (q.var = none → q'.var = none)

theorem ExactCopy.ofInv {w0 w : World F} {g0 g : NodeId → Grad} {m : Memo}
    (h : RCopyInv w0 g0 w g m) (qs qs' : List (RQ F))
    (hq : List.Forall₂ (RIsCopy m.vars) qs qs') :
    ExactCopy (w0.vars.map VarCell.rabs) (w.vars.map VarCell.rabs) m.vars qs qs' := by
  obtain ⟨l, hl⟩ := h.old
  refine ⟨⟨l.map VarCell.rabs, by simp [hl]⟩, h.one, ?_, ?_, hq⟩
  · intro v v' hv
    simpa using h.fresh v v' hv
  · intro v' h1 h2
    exact h.all v' (by simpa using h1) (by simpa using h2)

theorem UF.Valid.var_grad {w : World F} {g : NodeId → Grad} (h : RndInv w g) {u : UF F}
    (hu : u.Valid w) {v : VarId} (hv : u.var = some v) :
    g u.lin = Grad.single v ∧ v < w.vars.length := by
  obtain ⟨cell, h1, h2, -⟩ := hu.2 v hv
  have := h.vlin v cell h1
  rw [h2] at this
  exact ⟨this, (List.getElem?_eq_some_iff.mp h1).1⟩

/-- Summary of a copy. -/
structure RCopied (w : World F) (g : NodeId → Grad) (w' : World F) (g' : NodeId → Grad)
    (us us' : List (UF F)) : Prop where
  inv : RndInv w' g'
  grows : Grows w w'
  agree : ∀ i, i < w.nodes.length → g' i = g i
  wraps : w'.wraps = w.wraps
  valid : ∀ u ∈ us', u.Valid w'
  copy : ∃ ρ, ExactCopy (w.vars.map VarCell.rabs) (w'.vars.map VarCell.rabs) ρ
    (us.map (UF.rabs g)) (us'.map (UF.rabs g'))

theorem World.copyVar_rounded {w : World F} {g : NodeId → Grad} (h : RndInv w g) {u : UF F}
    (hu : u.Valid w) {v : VarId} (huv : u.var = some v) :
    ∃ w' g' u', w.copyVar v = (w', .ok u') ∧ RCopied w g w' g' [u] [u'] := by
  obtain ⟨hgrad, hv⟩ := hu.var_grad h huv
  obtain ⟨cell, hg, hlin, hnom⟩ := hu.2 v huv
  have hstd := h.shape.std v _ hg
  have hb' : (PyFloat.ltb cell.std 0 && !PyFloat.isInf cell.std) = false := hstd
  obtain ⟨a1, a2⟩ := (RCopyInv.start h).addVar hv hg rfl [] (by simp)
  refine ⟨w.withCopy cell, _, ⟨cell.nom, w.nodes.length, some w.vars.length⟩, ?_, a1.inv, a1.grows,
    a1.agree, a1.wraps, ?_, _, ExactCopy.ofInv a1 _ _ ?_⟩
  · simp only [World.copyVar, hg, World.ufloat, hb', Bool.false_eq_true, if_false, World.alloc]
    rfl
  · intro x hx
    simp only [List.mem_singleton] at hx
    subst hx
    refine ⟨by simp [World.withCopy], ?_⟩
    intro x hx
    cases hx
    exact ⟨{ cell with lin := w.nodes.length }, by simp [World.withCopy], rfl, rfl⟩
  · have hren : Renames [(v, w.vars.length)] (g u.lin)
        (rextend g w.nodes.length (Grad.single w.vars.length) w.nodes.length) := by
      rw [hgrad, rextend_self]
      exact GRenames.single (by simp)
    refine List.Forall₂.cons ⟨hnom, hren.forth, hren.back, ?_, ?_⟩ List.Forall₂.nil
    · intro x hx
      have hx' : u.var = some x := hx
      rw [huv] at hx'
      cases hx'
      exact ⟨w.vars.length, rfl, by simp [Memo.empty]⟩
    · intro hx
      have hx' : u.var = none := hx
      rw [huv] at hx'; cases hx'

theorem World.deepcopy_rounded {w : World F} {g : NodeId → Grad} (h : RndInv w g) {u : UF F}
    (hu : u.Valid w) :
    ∃ w' g' u', w.deepcopy u = (w', .ok u') ∧ RCopied w g w' g' [u] [u'] := by
  unfold World.deepcopy
  cases huv : u.var with
  | some v => exact World.copyVar_rounded h hu huv
  | none =>
    obtain ⟨w1, g1, m1, n, a1, a2, a3, a4, a5⟩ := copyNode_rounded (w0 := w) (g0 := g) false
      (u.lin + 1) u.lin (by omega) hu.1 w g Memo.empty (RCopyInv.start h)
    refine ⟨w1, g1, { nom := u.nom, lin := n, var := none }, ?_, a2.inv, a2.grows, a2.agree, a2.wraps,
      ?_, m1.vars, ExactCopy.ofInv a2 _ _ ?_⟩
    · simp only [a1]
    · intro x hx
      simp only [List.mem_singleton] at hx
      subst hx
      exact ⟨a4, by intro v hv; cases hv⟩
    · refine List.Forall₂.cons ⟨rfl, a5.forth, a5.back, ?_, fun _ => rfl⟩ List.Forall₂.nil
      intro v hv
      have hv' : u.var = some v := hv
      rw [huv] at hv'; cases hv'

theorem pickleOne_rounded {w0 w : World F} {g0 g : NodeId → Grad} {m : Memo}
    (h : RCopyInv w0 g0 w g m) {u : UF F} (hu : u.Valid w0) :
    ∃ w' g' m' u', pickleOne w m u = (w', m', .ok u') ∧ RCopyInv w0 g0 w' g' m' ∧
      RCopyStep w g m w' g' m' ∧ u'.Valid w' ∧ RIsCopy m'.vars (u.rabs g0) (u'.rabs g') := by
  unfold pickleOne
  cases huv : u.var with
  | some v =>
    obtain ⟨hgrad, hv⟩ := hu.var_grad h.inv0 huv
    obtain ⟨w1, g1, m1, v', a1, a2, a3, a4⟩ := copyVarMemo_rounded true h v hv
    obtain ⟨b1, b2, b3, b4⟩ := a2.fresh v v' a4
    have hg : w1.vars[v']? = some w1.vars[v'] := List.getElem?_eq_getElem b3
    have c1 := (List.getElem?_eq_some_iff.mp (a2.inv.shape.vars v' _ hg)).1
    have c2 := a2.inv.vlin v' _ hg
    have hren : Renames m1.vars (g0 u.lin) (g1 w1.vars[v'].lin) := by
      rw [hgrad, c2]
      exact GRenames.single a4
    refine ⟨w1, g1, m1, { nom := w1.vars[v'].nom, lin := w1.vars[v'].lin, var := some v' }, ?_,
      a2, a3, ⟨c1, ?_⟩, ?_, hren.forth, hren.back, ?_, ?_⟩
    · simp only [a1, hg]
    · intro x hx; cases hx; exact ⟨_, hg, rfl, rfl⟩
    · obtain ⟨cell, d1, d2, d3⟩ := hu.2 v huv
      rw [hg, d1] at b4
      have := congrArg RVar.nom (Option.some.inj b4)
      show w1.vars[v'].nom = u.nom
      rw [← d3]; exact this
    · intro x hx
      have hx' : u.var = some x := hx
      rw [huv] at hx'
      cases hx'
      exact ⟨v', rfl, a4⟩
    · intro hx
      have hx' : u.var = none := hx
      rw [huv] at hx'; cases hx'
  | none =>
    obtain ⟨w1, g1, m1, n, a1, a2, a3, a4, a5⟩ := copyNode_rounded (w0 := w0) (g0 := g0) true
      (u.lin + 1) u.lin (by omega) hu.1 w g m h
    refine ⟨w1, g1, m1, { nom := u.nom, lin := n, var := none }, ?_, a2, a3,
      ⟨a4, by intro v hv; cases hv⟩, rfl, a5.forth, a5.back, ?_, fun _ => rfl⟩
    · simp only [a1]
    · intro v hv
      have hv' : u.var = some v := hv
      rw [huv] at hv'; cases hv'

theorem pickleList_rounded {w0 : World F} {g0 : NodeId → Grad} (us : List (UF F))
    (hus : ∀ u ∈ us, u.Valid w0) {w : World F} {g : NodeId → Grad} {m : Memo}
    (h : RCopyInv w0 g0 w g m) :
    ∃ w' g' m' us', pickleList us w m = (w', .ok us') ∧ RCopyInv w0 g0 w' g' m' ∧
      RCopyStep w g m w' g' m' ∧ (∀ u ∈ us', u.Valid w') ∧
      List.Forall₂ (RIsCopy m'.vars) (us.map (UF.rabs g0)) (us'.map (UF.rabs g')) := by
  induction us generalizing w g m with
  | nil =>
    exact ⟨w, g, m, [], rfl, h, RCopyStep.refl h.inv, by simp, List.Forall₂.nil⟩
  | cons u us ih =>
    obtain ⟨w1, g1, m1, u', a1, a2, a3, a4, a5⟩ := pickleOne_rounded h (hus u (by simp))
    obtain ⟨w2, g2, m2, us', b1, b2, b3, b4, b5⟩ := ih (fun x hx => hus x (by simp [hx])) a2
    refine ⟨w2, g2, m2, u' :: us', ?_, b2, a3.trans b3, ?_, ?_⟩
    · simp only [pickleList, a1, b1]
    · intro x hx
      rcases List.mem_cons.mp hx with rfl | hx
      · exact a4.grows b3.grows
      · exact b4 x hx
    · refine List.Forall₂.cons ?_ b5
      have e : u'.rabs g2 = u'.rabs g1 := by
        simp only [UF.rabs]; rw [b3.agree _ a4.1]
      rw [e]
      obtain ⟨c1, c2, c3, c4, c5⟩ := a5
      refine ⟨c1, ?_, ?_, ?_, c5⟩
      · intro v I hv
        obtain ⟨v', d1, d2⟩ := c2 v I hv
        exact ⟨v', b3.mvars _ d1, d2⟩
      · intro v I hv
        obtain ⟨v', d1, d2⟩ := c3 v I hv
        exact ⟨v', b3.mvars _ d1, d2⟩
      · intro v hv
        obtain ⟨v', d1, d2⟩ := c4 v hv
        exact ⟨v', d1, b3.mvars _ d2⟩

theorem World.pickle_rounded {w : World F} {g : NodeId → Grad} (h : RndInv w g) (us : List (UF F))
    (hus : ∀ u ∈ us, u.Valid w) :
    ∃ w' g' us', w.pickle us = (w', .ok us') ∧ RCopied w g w' g' us us' := by
  obtain ⟨w1, g1, m1, us', a1, a2, a3, a4, a5⟩ := pickleList_rounded us hus (RCopyInv.start h)
  exact ⟨w1, g1, us', a1, a2.inv, a2.grows, a2.agree, a2.wraps, a4, m1.vars, ExactCopy.ofInv a2 _ _ a5⟩

end floats

/-! ### Histories -/

section machine
variable {F : Type} [PyMath F] [Rounded F]

theorem RRel.copied {g : NodeId → Grad} {m : Machine F} {s : RState F} (h : RRel g m s)
    {w' : World F} {g' : NodeId → Grad} {us us' : List (UF F)} (hc : RCopied m.w g w' g' us us') :
    ∃ s', RRel g' ⟨w', m.env ++ us'.map (fun u => some (.unc u))⟩ s' ∧
      ExactCopied s s' (us.map (UF.rabs g)) := by
  obtain ⟨ρ, hρ⟩ := hc.copy
  refine ⟨⟨w'.vars.map VarCell.rabs, s.fns,
    s.env ++ (us'.map (UF.rabs g')).map (fun q => some (.unc q))⟩,
    ⟨hc.inv, rfl, ?_, ?_, ?_⟩, ρ, _, ?_, rfl, rfl⟩
  · show s.fns = w'.wraps.map Wrapped.df
    rw [hc.wraps]; exact h.fns
  · simp only [List.map_append, List.map_map]
    rw [h.env]
    congr 1
    apply List.map_congr_left
    intro o ho
    cases o with
    | none => rfl
    | some v =>
      simp only [Option.map]
      rw [Val.rabs_agree hc.agree (h.ok v ho)]
  · intro v hv
    rcases List.mem_append.mp hv with hv | hv
    · exact Val.Valid.grows hc.grows (h.ok v hv)
    · obtain ⟨u, hu, e⟩ := List.mem_map.mp hv
      cases e
      exact hc.valid u hu
  · rw [h.vars]
    exact hρ

/-- Every command behaves as specified. -/
theorem Machine.step_exact [Halts F] {g : NodeId → Grad} {m : Machine F} {s : RState F}
    (h : RRel g m s) (c : Cmd F) :
    ∃ g' s', RRel g' (m.step c).1 s' ∧ ExactStep s c s' := by
  by_cases hc : c.isCopy = false
  · obtain ⟨g', hg'⟩ := Machine.step_rounded h hc
    refine ⟨g', _, hg', ?_⟩
    cases c <;> first | rfl | cases hc
  · cases c with
    | copy x =>
      simp only [Machine.step, ExactStep, h.evalUnc x]
      cases hx : x.evalUnc m.env with
      | none => exact ⟨g, _, h.skip 1, rfl⟩
      | some u =>
        have hu := h.mshape.evalUnc hx
        simp only [Option.map, World.copy]
        cases huv : u.var with
        | none =>
          have h2 := h.push [some (.unc u)] (by intro v hv; simp at hv; subst hv; exact hu)
          refine ⟨g, _, h2, ?_⟩
          simp only [UF.rabs, huv, List.map, Option.map, Val.rabs]
        | some v =>
          obtain ⟨w', g', u', a1, a2⟩ := World.copyVar_rounded h.inv hu huv
          simp only [a1]
          obtain ⟨s', b1, b2⟩ := h.copied a2
          refine ⟨g', s', b1, ?_⟩
          simp only [UF.rabs, huv]
          simpa [UF.rabs, huv] using b2
    | deepcopy x =>
      simp only [Machine.step, ExactStep, h.evalUnc x]
      cases hx : x.evalUnc m.env with
      | none => exact ⟨g, _, h.skip 1, rfl⟩
      | some u =>
        have hu := h.mshape.evalUnc hx
        obtain ⟨w', g', u', a1, a2⟩ := World.deepcopy_rounded h.inv hu
        simp only [Option.map, a1]
        obtain ⟨s', b1, b2⟩ := h.copied a2
        exact ⟨g', s', b1, b2⟩
    | pickle xs =>
      simp only [Machine.step, ExactStep]
      rw [evalArgs_map (Arg.evalUnc m.env) (Arg.revalUnc s.env) (UF.rabs g) h.evalUnc xs]
      cases hx : evalArgs (Arg.evalUnc m.env) xs with
      | none => exact ⟨g, _, h.skip _, rfl⟩
      | some us =>
        have hus : ∀ u ∈ us, u.Valid m.w := by
          intro u hu
          obtain ⟨_, _, e⟩ := evalArgs_mem hx u hu
          exact h.mshape.evalUnc e
        obtain ⟨w', g', us', a1, a2⟩ := World.pickle_rounded h.inv us hus
        simp only [Option.map, a1]
        obtain ⟨s', b1, b2⟩ := h.copied a2
        exact ⟨g', s', b1, b2⟩
    | _ => exact absurd rfl hc

theorem ExactRun.snoc {s s1 s2 : RState F} {cs : List (Cmd F)} {c : Cmd F} (h : ExactRun s cs s1)
    (hc : ExactStep s1 c s2) : ExactRun s (cs ++ [c]) s2 := by
  induction h with
  | nil s => exact .cons hc (.nil _)
  | cons h1 _ ih => exact .cons h1 (ih hc)

/-- State after a history. -/
theorem RRel.afterAll [Halts F] (cs : List (Cmd F)) :
    ∃ g s, RRel g (Unc.after cs) s ∧ ExactlyRuns cs s := by
  induction cs using List.reverseRecOn with
  | nil => exact ⟨_, _, RRel.init, .nil _⟩
  | append_singleton cs c ih =>
    obtain ⟨g, s, h, hr⟩ := ih
    obtain ⟨g', s', h', hs⟩ := Machine.step_exact h c
    refine ⟨g', s', ?_, hr.snoc hs⟩
    rw [after_snoc']
    exact h'

/-- Without copies, the state after a history is determined. -/
theorem ExactlyRuns.eq {cs : List (Cmd F)} (hc : ∀ c ∈ cs, c.isCopy = false) {s : RState F}
    (h : ExactlyRuns cs s) : s = exactly cs := by
  have key : ∀ {s0 s1 : RState F} {cs : List (Cmd F)}, ExactRun s0 cs s1 →
      (∀ c ∈ cs, c.isCopy = false) → s1 = cs.foldl RState.step s0 := by
    intro s0 s1 cs h
    induction h with
    | nil s => intro _; rfl
    | @cons s c s1 cs s2 h1 _ ih =>
      intro hc
      rw [ih (fun c' hc' => hc c' (by simp [hc']))]
      have : s1 = s.step c := by
        have := hc c (by simp)
        cases c <;> first | exact h1 | cases this
      rw [this]
      rfl
  exact key h hc

end machine

end Unc
