import Verif.Lemmas.World2
import Verif.Model.Copy
import Verif.Spec.Copy

namespace Unc

set_option linter.unusedSectionVars false
set_option autoImplicit false

variable {F : Type} [PyOps F]

/-! ### Renamings -/

theorem Renames.mono {ρ ρ' : List (VarId × VarId)} (h : ∀ p ∈ ρ, p ∈ ρ') {l l' : Lin F}
    (hr : Renames ρ l l') : Renames ρ' l l' := by
  refine ⟨fun v x hx => ?_, fun v x hx => ?_⟩
  · obtain ⟨v', h1, h2⟩ := hr.forth v x hx; exact ⟨v', h _ h1, h2⟩
  · obtain ⟨v', h1, h2⟩ := hr.back v x hx; exact ⟨v', h _ h1, h2⟩

theorem Renames.zero (ρ : List (VarId × VarId)) : Renames ρ (Lin.zero : Lin F) Lin.zero :=
  ⟨fun v x hx => (by cases hx), fun v x hx => (by cases hx)⟩

/-- On related variables, the gradients are equal. -/
theorem Renames.eq {ρ : List (VarId × VarId)} (ho : OneToOne ρ) {l l' : Lin F}
    (hr : Renames ρ l l') {v v' : VarId} (h : (v, v') ∈ ρ) : l' v' = l v := by
  cases hl : l v with
  | some x =>
    obtain ⟨u, h1, h2⟩ := hr.forth v x hl
    rw [ho.left v v' u h h1]; exact h2
  | none =>
    cases hl' : l' v' with
    | none => rfl
    | some x =>
      obtain ⟨u, h1, h2⟩ := hr.back v' x hl'
      rw [ho.right v' v u h h1, h2] at hl
      cases hl

theorem Renames.smul {ρ : List (VarId × VarId)} {l l' : Lin F} (hr : Renames ρ l l') (c : F) :
    Renames ρ (Lin.smul c l) (Lin.smul c l') := by
  refine ⟨fun v x hx => ?_, fun v x hx => ?_⟩
  · simp only [Lin.smul, Option.map_eq_some_iff] at hx
    obtain ⟨a, ha, rfl⟩ := hx
    obtain ⟨v', h1, h2⟩ := hr.forth v a ha
    exact ⟨v', h1, by simp [Lin.smul, h2]⟩
  · simp only [Lin.smul, Option.map_eq_some_iff] at hx
    obtain ⟨a, ha, rfl⟩ := hx
    obtain ⟨v', h1, h2⟩ := hr.back v a ha
    exact ⟨v', h1, by simp [Lin.smul, h2]⟩

theorem Renames.add {ρ : List (VarId × VarId)} (ho : OneToOne ρ) {a a' b b' : Lin F}
    (ha : Renames ρ a a') (hb : Renames ρ b b') : Renames ρ (Lin.add a b) (Lin.add a' b') := by
  refine ⟨fun v x hx => ?_, fun v x hx => ?_⟩
  · have : ∃ v', (v, v') ∈ ρ := by
      cases h1 : a v with
      | some y => obtain ⟨v', h, -⟩ := ha.forth v y h1; exact ⟨v', h⟩
      | none =>
        cases h2 : b v with
        | some y => obtain ⟨v', h, -⟩ := hb.forth v y h2; exact ⟨v', h⟩
        | none => simp [Lin.add, h1, h2, optAdd] at hx
    obtain ⟨v', h⟩ := this
    refine ⟨v', h, ?_⟩
    simp only [Lin.add] at hx ⊢
    rw [ha.eq ho h, hb.eq ho h]; exact hx
  · have : ∃ v', (v', v) ∈ ρ := by
      cases h1 : a' v with
      | some y => obtain ⟨v', h, -⟩ := ha.back v y h1; exact ⟨v', h⟩
      | none =>
        cases h2 : b' v with
        | some y => obtain ⟨v', h, -⟩ := hb.back v y h2; exact ⟨v', h⟩
        | none => simp [Lin.add, h1, h2, optAdd] at hx
    obtain ⟨v', h⟩ := this
    refine ⟨v', h, ?_⟩
    simp only [Lin.add] at hx ⊢
    rw [← ha.eq ho h, ← hb.eq ho h]; exact hx

/-! ### Invariant of the copy -/

/-- State in the course of a copy that started in state `w0`. -/
structure CopyInv (w0 : World F) (g0 : NodeId → Lin F) (w : World F) (g : NodeId → Lin F)
    (m : Memo) : Prop where
  inv0 : Inv w0 g0
  ev : Evolves' w0 g0 w g
  wraps : w.wraps = w0.wraps
  old : ∃ l, w.vars = w0.vars ++ l
  one : OneToOne m.vars
  fresh : ∀ v v', (v, v') ∈ m.vars → v < w0.vars.length ∧ w0.vars.length ≤ v' ∧
    v' < w.vars.length ∧ w.svars[v']? = w0.svars[v]?
  all : ∀ v', w0.vars.length ≤ v' → v' < w.vars.length → ∃ v, (v, v') ∈ m.vars
  nodes : ∀ i i', (i, i') ∈ m.nodes → i < w0.nodes.length ∧ i' < w.nodes.length ∧
    Renames m.vars (g0 i) (g i')

theorem CopyInv.start {w : World F} {g : NodeId → Lin F} (h : Inv w g) :
    CopyInv w g w g Memo.empty :=
  ⟨h, (Evolves.refl h).weaken, rfl, ⟨[], by simp⟩, ⟨by simp [Memo.empty], by simp [Memo.empty]⟩,
   by simp [Memo.empty], by intro v h1 h2; omega, by simp [Memo.empty]⟩

/-- Progress of a copy. -/
structure CopyStep (w : World F) (g : NodeId → Lin F) (m : Memo) (w' : World F)
    (g' : NodeId → Lin F) (m' : Memo) : Prop where
  ev : Evolves' w g w' g'
  mvars : ∀ p ∈ m.vars, p ∈ m'.vars
  keep : ∀ (v : VarId) (c : SVar F), w.svars[v]? = some c → w'.svars[v]? = some c

theorem CopyStep.refl {w : World F} {g : NodeId → Lin F} {m : Memo} (h : Inv w g) :
    CopyStep w g m w g m := ⟨(Evolves.refl h).weaken, fun _ h => h, fun _ _ h => h⟩

theorem CopyStep.trans {w w' w'' : World F} {g g' g'' : NodeId → Lin F} {m m' m'' : Memo}
    (h : CopyStep w g m w' g' m') (h' : CopyStep w' g' m' w'' g'' m'') :
    CopyStep w g m w'' g'' m'' :=
  ⟨h.ev.trans h'.ev, fun p hp => h'.mvars p (h.mvars p hp),
   fun v c hv => h'.keep v c (h.keep v c hv)⟩

theorem mem_of_lookup {α : Type} {l : List (Nat × α)} {k : Nat} {x : α}
    (h : l.lookup k = some x) : (k, x) ∈ l := by
  induction l with
  | nil => cases h
  | cons p l ih =>
    obtain ⟨a, b⟩ := p
    rw [List.lookup_cons] at h
    by_cases hk : k = a
    · subst hk; simp at h; subst h; simp
    · have : (k == a) = false := by simpa using hk
      rw [this] at h
      exact List.mem_cons_of_mem _ (ih h)

theorem lookup_none_not_mem {α : Type} {l : List (Nat × α)} {k : Nat}
    (h : l.lookup k = none) (x : α) : (k, x) ∉ l := by
  intro hm
  rw [List.lookup_eq_none_iff] at h
  have := h _ hm
  simp at this

theorem dict_single {d : Derivs F} {v : VarId} (hn : KeysNodup d)
    (hd : Lin.ofDict d = Lin.single v) : d = [(v, 1)] := by
  have hl : ∀ u, d.lookup u = if u = v then some 1 else none := fun u => by
    have := congrFun hd u
    simpa [Lin.ofDict, Lin.single] using this
  cases d with
  | nil => have := hl v; simp at this
  | cons p d =>
    obtain ⟨u, x⟩ := p
    have h1 := hl u
    rw [lookup_cons] at h1
    simp only [if_true] at h1
    have huv : u = v := by
      by_contra hc
      rw [if_neg hc] at h1
      cases h1
    subst huv
    simp at h1
    subst h1
    cases d with
    | nil => rfl
    | cons q d =>
      obtain ⟨u', y⟩ := q
      have h2 := hl u'
      have hne : u' ≠ u := by
        intro hc
        subst hc
        simp [KeysNodup] at hn
      rw [lookup_cons, if_neg hne] at h2
      simp only [hne, if_false] at h2
      rw [lookup_cons] at h2
      simp at h2

/-- Copy of a variable. -/
theorem copyVarMemo_spec {w0 w : World F} {g0 g : NodeId → Lin F} {m : Memo} (share : Bool)
    (h : CopyInv w0 g0 w g m) (v : VarId) (hv : v < w0.vars.length) :
    ∃ w' g' m' v', copyVarMemo share w m v = (w', m', .ok v') ∧ CopyInv w0 g0 w' g' m' ∧
      CopyStep w g m w' g' m' ∧ (v, v') ∈ m'.vars := by
  unfold copyVarMemo
  cases hl : m.vars.lookup v with
  | some v' =>
    exact ⟨w, g, m, v', rfl, h, CopyStep.refl h.ev.inv, mem_of_lookup hl⟩
  | none =>
    simp only []
    obtain ⟨old, hold⟩ := h.old
    have hvw : v < w.vars.length := by rw [hold]; simp; omega
    have hg : w.vars[v]? = some w.vars[v] := List.getElem?_eq_getElem hvw
    have hstd := h.ev.inv.std v _ hg
    simp only [hg]
    set cell := w.vars[v] with hcell
    obtain ⟨w1, g1, r, a1, a2, a3, a4⟩ := World.ufloat_spec h.ev.inv cell.nom cell.std cell.tag
    rw [hstd] at a4
    simp only [Bool.false_eq_true, if_false] at a4
    obtain ⟨a4, u, rfl, a5, a6⟩ := a4
    have huv : u.var = some w.vars.length := congrArg SQ.var a6
    have hulin : g1 u.lin = Lin.single w.vars.length := congrArg SQ.grad a6
    have hlen1 : w1.vars.length = w.vars.length + 1 := by
      have := congrArg List.length a4
      simpa [World.svars] using this
    have hkeep : ∀ (k : Nat) (c : SVar F), w.svars[k]? = some c → w1.svars[k]? = some c := by
      intro k c hk
      rw [a4, List.getElem?_append_left]
      · exact hk
      · rw [List.getElem?_eq_some_iff] at hk; exact hk.1
    have hnew : w1.svars[w.vars.length]? = w0.svars[v]? := by
      rw [a4]
      have : w.vars.length = w.svars.length := by simp [World.svars]
      rw [this, List.getElem?_append_right (Nat.le_refl _)]
      simp only [Nat.sub_self, List.getElem?_cons_zero, World.svars, List.getElem?_map]
      have : w0.vars[v]? = some cell := by
        rw [← hg, hold, List.getElem?_append_left hv]
      rw [this]; rfl
    -- the new memo, for both kinds of copies
    have hinv : ∀ nm : List (NodeId × NodeId),
        (∀ i i', (i, i') ∈ nm → (i, i') ∈ m.nodes ∨ (i < w0.nodes.length ∧ i' < w1.nodes.length ∧
          g0 i = Lin.single v ∧ g1 i' = Lin.single w.vars.length)) →
        CopyInv w0 g0 w1 g1 ⟨nm, (v, w.vars.length) :: m.vars⟩ := by
      intro nm hnm
      refine ⟨h.inv0, h.ev.trans a2, a3.trans h.wraps, ?_, ?_, ?_, ?_, ?_⟩
      · obtain ⟨l, hl⟩ := a2.fns
        -- the variables are extended by one
        have := a1
        unfold World.ufloat at this
        have hb' : (PyFloat.ltb cell.std 0 && !PyFloat.isInf cell.std) = false := hstd
        simp only [hb', Bool.false_eq_true, if_false, World.alloc] at this
        have hw1 := congrArg Prod.fst this
        refine ⟨old ++ [⟨cell.nom, cell.std, cell.tag, List.length w.nodes⟩], ?_⟩
        rw [show w1 = _ from hw1.symm, hold]
        simp
      · refine ⟨fun x a b ha hb => ?_, fun x a b ha hb => ?_⟩
        · rcases List.mem_cons.mp ha with ha | ha <;> rcases List.mem_cons.mp hb with hb | hb
          · cases ha; cases hb; rfl
          · cases ha; exact absurd hb (lookup_none_not_mem hl b)
          · cases hb; exact absurd ha (lookup_none_not_mem hl a)
          · exact h.one.left x a b ha hb
        · rcases List.mem_cons.mp ha with ha | ha <;> rcases List.mem_cons.mp hb with hb | hb
          · cases ha; cases hb; rfl
          · cases ha; have := (h.fresh _ _ hb).2.2.1; omega
          · cases hb; have := (h.fresh _ _ ha).2.2.1; omega
          · exact h.one.right x a b ha hb
      · intro a b hab
        rcases List.mem_cons.mp hab with hab | hab
        · cases hab
          refine ⟨hv, by rw [hold]; simp, by omega, hnew⟩
        · obtain ⟨b1, b2, b3, b4⟩ := h.fresh a b hab
          refine ⟨b1, b2, by omega, ?_⟩
          have hlt : a < w0.svars.length := by simpa [World.svars] using b1
          rw [List.getElem?_eq_getElem hlt] at b4 ⊢
          exact hkeep b _ b4
      · intro v' h1 h2
        by_cases hc : v' < w.vars.length
        · obtain ⟨x, hx⟩ := h.all v' h1 hc
          exact ⟨x, List.mem_cons_of_mem _ hx⟩
        · have : v' = w.vars.length := by omega
          subst this
          exact ⟨v, by simp⟩
      · intro i i' hi
        rcases hnm i i' hi with hi | ⟨b1, b2, b3, b4⟩
        · obtain ⟨b1, b2, b3⟩ := h.nodes i i' hi
          refine ⟨b1, Nat.lt_of_lt_of_le b2 a2.len, ?_⟩
          rw [a2.agree i' b2]
          exact b3.mono (fun p hp => List.mem_cons_of_mem _ hp)
        · refine ⟨b1, b2, ?_⟩
          rw [b3, b4]
          refine ⟨fun x y hx => ?_, fun x y hx => ?_⟩
          · simp only [Lin.single] at hx
            split at hx
            · rename_i hxv; subst hxv; exact ⟨_, List.mem_cons_self, by simp [Lin.single]; simpa using hx⟩
            · cases hx
          · simp only [Lin.single] at hx
            split at hx
            · rename_i hxv; subst hxv; exact ⟨_, List.mem_cons_self, by simp [Lin.single]; simpa using hx⟩
            · cases hx
    have hstep : ∀ nm, CopyStep w g m w1 g1 ⟨nm, (v, w.vars.length) :: m.vars⟩ := fun nm =>
      ⟨a2, fun p hp => List.mem_cons_of_mem _ hp, hkeep⟩
    cases share with
    | false =>
      refine ⟨w1, g1, ⟨m.nodes, (v, w.vars.length) :: m.vars⟩, w.vars.length, ?_,
        hinv _ (fun i i' hi => Or.inl hi), hstep _, List.mem_cons_self⟩
      simp [a1, huv]
    | true =>
      obtain ⟨d, hd⟩ := h.ev.inv.vdict v cell hg
      have hcok := h.ev.inv.den cell.lin _ hd
      have hsing := (h.ev.inv.vars v cell hg)
      have hd1 : d = [(v, 1)] := dict_single hcok.1 (by
        have h2 : Lin.ofDict d = g cell.lin := hcok.2
        rw [h2]; exact hsing.2)
      subst hd1
      have hclin : cell.lin < w0.nodes.length ∧ g0 cell.lin = Lin.single v := by
        have : w0.vars[v]? = some cell := by
          rw [← hg, hold, List.getElem?_append_left hv]
        have hlt : cell.lin < w0.nodes.length := by
          exact (h.inv0.vars v cell this).1
        exact ⟨hlt, by rw [← h.ev.agree _ hlt]; exact hsing.2⟩
      have hw1 : w1 = { (w.alloc (.dict [(w.vars.length, 1)])).1 with
          vars := w.vars ++ [{ cell with lin := w.nodes.length }] } ∧ u.lin = w.nodes.length := by
        have := a1
        unfold World.ufloat at this
        have hb' : (PyFloat.ltb cell.std 0 && !PyFloat.isInf cell.std) = false := hstd
        simp only [hb', Bool.false_eq_true, if_false, World.alloc, Prod.mk.injEq,
          Except.ok.injEq] at this
        exact ⟨this.1.symm, by rw [← this.2]⟩
      refine ⟨w1, g1, ⟨(cell.lin, w.nodes.length) :: m.nodes, (v, w.vars.length) :: m.vars⟩,
        w.vars.length, ?_, hinv _ ?_, hstep _, List.mem_cons_self⟩
      · simp only [if_true, hd]
        rw [hw1.1]; rfl
      · intro i i' hi
        rcases List.mem_cons.mp hi with hi | hi
        · cases hi
          refine Or.inr ⟨hclin.1, ?_, hclin.2, ?_⟩
          · rw [← hw1.2]; exact a5.1
          · rw [← hw1.2]; exact hulin
        · exact Or.inl hi

/-- The dictionaries have the same values for related variables. -/
def DictRel (ρ : List (VarId × VarId)) (d d' : Derivs F) : Prop :=
  List.Forall₂ (fun p q => (p.1, q.1) ∈ ρ ∧ p.2 = q.2) d d'

theorem DictRel.mono {ρ ρ' : List (VarId × VarId)} (h : ∀ p ∈ ρ, p ∈ ρ') {d d' : Derivs F}
    (hd : DictRel ρ d d') : DictRel ρ' d d' :=
  List.Forall₂.imp (fun _ _ hp => ⟨h _ hp.1, hp.2⟩) hd

theorem DictRel.lookup {ρ : List (VarId × VarId)} (ho : OneToOne ρ) {d d' : Derivs F}
    (hd : DictRel ρ d d') {v v' : VarId} (h : (v, v') ∈ ρ) : d'.lookup v' = d.lookup v := by
  induction hd with
  | nil => rfl
  | @cons p q d d' hpq hd ih =>
    obtain ⟨a, x⟩ := p
    obtain ⟨b, y⟩ := q
    obtain ⟨h1, h2⟩ := hpq
    simp only at h1 h2
    subst h2
    rw [lookup_cons, lookup_cons, ih]
    by_cases hva : v = a
    · subst hva
      rw [ho.left v v' b h h1]; simp
    · have : v' ≠ b := by
        intro hc
        subst hc
        exact hva (ho.right v' v a h h1)
      rw [if_neg this, if_neg hva]

theorem DictRel.mem {ρ : List (VarId × VarId)} {d d' : Derivs F}
    (hd : DictRel ρ d d') {v' : VarId} (h : v' ∈ d'.map Prod.fst) :
    ∃ v, v ∈ d.map Prod.fst ∧ (v, v') ∈ ρ := by
  induction hd with
  | nil => cases h
  | @cons p q d d' hpq hd ih =>
    simp only [List.map_cons, List.mem_cons] at h
    rcases h with h | h
    · subst h; exact ⟨p.1, by simp, hpq.1⟩
    · obtain ⟨v, h1, h2⟩ := ih h
      exact ⟨v, by simp only [List.map_cons, List.mem_cons]; exact Or.inr h1, h2⟩

theorem DictRel.mem' {ρ : List (VarId × VarId)} {d d' : Derivs F}
    (hd : DictRel ρ d d') {v : VarId} (h : v ∈ d.map Prod.fst) :
    ∃ v', v' ∈ d'.map Prod.fst ∧ (v, v') ∈ ρ := by
  induction hd with
  | nil => cases h
  | @cons p q d d' hpq hd ih =>
    simp only [List.map_cons, List.mem_cons] at h
    rcases h with h | h
    · subst h; exact ⟨q.1, by simp, hpq.1⟩
    · obtain ⟨v, h1, h2⟩ := ih h
      exact ⟨v, by simp only [List.map_cons, List.mem_cons]; exact Or.inr h1, h2⟩

theorem DictRel.nodup {ρ : List (VarId × VarId)} (ho : OneToOne ρ) {d d' : Derivs F}
    (hd : DictRel ρ d d') (hn : KeysNodup d) : KeysNodup d' := by
  induction hd with
  | nil => exact hn
  | @cons p q d d' hpq hd ih =>
    have hn' := List.nodup_cons.mp hn
    refine List.nodup_cons.mpr ⟨?_, ih hn'.2⟩
    intro hm
    obtain ⟨v, h1, h2⟩ := DictRel.mem (ρ := ρ) hd hm
    have := ho.right _ _ _ h2 hpq.1
    subst this
    exact hn'.1 h1

theorem DictRel.renames {ρ : List (VarId × VarId)} (ho : OneToOne ρ) {d d' : Derivs F}
    (hd : DictRel ρ d d') : Renames ρ (Lin.ofDict d) (Lin.ofDict d') := by
  refine ⟨fun v x hx => ?_, fun v x hx => ?_⟩
  · obtain ⟨v', -, h⟩ := hd.mem' (mem_keys_of_lookup hx)
    exact ⟨v', h, by simp only [Lin.ofDict]; rw [hd.lookup ho h]; exact hx⟩
  · obtain ⟨v', -, h⟩ := hd.mem (mem_keys_of_lookup hx)
    exact ⟨v', h, by simp only [Lin.ofDict]; rw [← hd.lookup ho h]; exact hx⟩

theorem copyDict_spec {w0 : World F} {g0 : NodeId → Lin F} (share : Bool) (d : Derivs F)
    {w : World F} {g : NodeId → Lin F} {m : Memo}
    (h : CopyInv w0 g0 w g m) (hd : ∀ v ∈ d.map Prod.fst, v < w0.vars.length) :
    ∃ w' g' m' d', copyDict share d w m = (w', m', .ok d') ∧ CopyInv w0 g0 w' g' m' ∧
      CopyStep w g m w' g' m' ∧ DictRel m'.vars d d' := by
  induction d generalizing w g m with
  | nil => exact ⟨w, g, m, [], rfl, h, CopyStep.refl h.ev.inv, List.Forall₂.nil⟩
  | cons p d ih =>
    obtain ⟨v, x⟩ := p
    obtain ⟨w1, g1, m1, v', a1, a2, a3, a4⟩ := copyVarMemo_spec share h v (hd v (by simp))
    obtain ⟨w2, g2, m2, d', b1, b2, b3, b4⟩ := ih a2 (fun u hu => hd u (by
      simp only [List.map_cons, List.mem_cons]; exact Or.inr hu))
    refine ⟨w2, g2, m2, (v', x) :: d', ?_, b2, a3.trans b3, ?_⟩
    · simp only [copyDict, a1, b1]
    · exact List.Forall₂.cons ⟨b3.mvars _ a4, rfl⟩ b4

/-- Specification of the copy of an object. -/
def CopyOK (w0 : World F) (g0 : NodeId → Lin F)
    (cp : NodeId → World F → Memo → World F × Memo × PyRes NodeId) (j : NodeId) : Prop :=
  ∀ (w : World F) (g : NodeId → Lin F) (m : Memo), CopyInv w0 g0 w g m →
    ∃ w' g' m' j', cp j w m = (w', m', .ok j') ∧ CopyInv w0 g0 w' g' m' ∧
      CopyStep w g m w' g' m' ∧ j' < w'.nodes.length ∧ Renames m'.vars (g0 j) (g' j')

theorem copyItems_spec {w0 : World F} {g0 : NodeId → Lin F}
    (cp : NodeId → World F → Memo → World F × Memo × PyRes NodeId) (i : NodeId)
    (hcp : ∀ j, j < i → CopyOK w0 g0 cp j) (ts : List (Item F)) (hts : ItemsBelow i ts)
    {w : World F} {g : NodeId → Lin F} {m : Memo} (h : CopyInv w0 g0 w g m) :
    ∃ w' g' m' ts', copyItems cp ts w m = (w', m', .ok ts') ∧ CopyInv w0 g0 w' g' m' ∧
      CopyStep w g m w' g' m' ∧ ItemsBelow w'.nodes.length ts' ∧
      Renames m'.vars (linItems g0 ts) (linItems g' ts') := by
  induction ts with
  | nil =>
    exact ⟨w, g, m, [], rfl, h, CopyStep.refl h.ev.inv, (by intro t ht; cases ht), Renames.zero _⟩
  | cons t ts ih =>
    obtain ⟨c, j, rfl, hj⟩ := hts t (by simp)
    obtain ⟨w1, g1, m1, ts', a1, a2, a3, a4, a5⟩ := ih (fun t ht => hts t (by simp [ht]))
    obtain ⟨w2, g2, m2, j', b1, b2, b3, b4, b5⟩ := hcp j hj w1 g1 m1 a2
    refine ⟨w2, g2, m2, .pair c j' :: ts', ?_, b2, a3.trans b3, ?_, ?_⟩
    · simp only [copyItems, a1, b1]
    · intro t ht
      rcases List.mem_cons.mp ht with ht | ht
      · exact ⟨c, j', ht, b4⟩
      · obtain ⟨c', k, hk, hlt⟩ := a4 t ht
        exact ⟨c', k, hk, Nat.lt_of_lt_of_le hlt b3.ev.len⟩
    · simp only [linItems]
      refine Renames.add b2.one (b5.smul c) ?_
      rw [linItems_congr a4 (fun k hk => b3.ev.agree k hk)]
      exact a5.mono b3.mvars

/-- Adding a copied object to the memo. -/
theorem CopyInv.addNode {w0 w : World F} {g0 g : NodeId → Lin F} {m : Memo}
    (h : CopyInv w0 g0 w g m) (i : NodeId) (hi : i < w0.nodes.length) (lc : LC F) (l : Lin F)
    (hc : CellOK (extend g w.nodes.length l) w.nodes.length lc)
    (hk : ∀ v x, l v = some x → v < w.vars.length) (hr : Renames m.vars (g0 i) l) :
    CopyInv w0 g0 (w.alloc lc).1 (extend g w.nodes.length l)
      ⟨(i, w.nodes.length) :: m.nodes, m.vars⟩ ∧
    CopyStep w g m (w.alloc lc).1 (extend g w.nodes.length l)
      ⟨(i, w.nodes.length) :: m.nodes, m.vars⟩ := by
  have hal := h.ev.inv.alloc lc l hc hk
  refine ⟨⟨h.inv0, h.ev.trans hal.weaken, h.wraps, h.old, h.one, h.fresh, h.all, ?_⟩,
    ⟨hal.weaken, fun p hp => hp, fun v c hv => hv⟩⟩
  intro a b hab
  rcases List.mem_cons.mp hab with hab | hab
  · cases hab
    refine ⟨hi, by simp [World.alloc], ?_⟩
    rw [extend_self]; exact hr
  · obtain ⟨b1, b2, b3⟩ := h.nodes a b hab
    refine ⟨b1, Nat.lt_of_lt_of_le b2 hal.len, ?_⟩
    rw [extend_lt b2]; exact b3

theorem copyNode_spec {w0 : World F} {g0 : NodeId → Lin F} (share : Bool) (fuel : Nat)
    (i : NodeId) (hf : i < fuel) (hi : i < w0.nodes.length) :
    CopyOK w0 g0 (copyNode share fuel) i := by
  induction fuel generalizing i with
  | zero => omega
  | succ fuel ih =>
    intro w g m h
    unfold copyNode
    cases hl : m.nodes.lookup i with
    | some i' =>
      obtain ⟨-, b2, b3⟩ := h.nodes i i' (mem_of_lookup hl)
      exact ⟨w, g, m, i', rfl, h, CopyStep.refl h.ev.inv, b2, b3⟩
    | none =>
      have hiw : i < w.nodes.length := Nat.lt_of_lt_of_le hi h.ev.len
      have hcell := h.ev.inv.den i _ (List.getElem?_eq_getElem hiw)
      have hgi : g i = g0 i := h.ev.agree i hi
      simp only [List.getElem?_eq_getElem hiw]
      cases hlc : w.nodes[i] with
      | dict d =>
        rw [hlc] at hcell
        obtain ⟨hn, hd⟩ := hcell
        have hd0 : Lin.ofDict d = g0 i := hd.trans hgi
        have hk : ∀ v ∈ d.map Prod.fst, v < w0.vars.length := by
          intro v hv
          obtain ⟨⟨v', x⟩, hp, rfl⟩ := List.mem_map.mp hv
          have : d.lookup v' ≠ none := by
            intro hc
            exact lookup_none_not_mem hc x hp
          obtain ⟨y, hy⟩ := Option.ne_none_iff_exists'.mp this
          exact h.inv0.keys i hi v' y (by rw [← hd0]; exact hy)
        obtain ⟨w1, g1, m1, d', a1, a2, a3, a4⟩ := copyDict_spec share d h hk
        simp only [a1]
        cases hl1 : m1.nodes.lookup i with
        | some i' =>
          obtain ⟨-, b2, b3⟩ := a2.nodes i i' (mem_of_lookup hl1)
          exact ⟨w1, g1, m1, i', rfl, a2, a3, b2, b3⟩
        | none =>
          have hr : Renames m1.vars (g0 i) (Lin.ofDict d') := by
            rw [← hd0]; exact a4.renames a2.one
          have hcell' : CellOK (extend g1 w1.nodes.length (Lin.ofDict d')) w1.nodes.length
              (.dict d') := ⟨a4.nodup a2.one hn, by rw [extend_self]⟩
          have hkeys : ∀ v x, Lin.ofDict d' v = some x → v < w1.vars.length := by
            intro v x hx
            obtain ⟨v0, -, hv0⟩ := a4.mem (mem_keys_of_lookup hx)
            exact (a2.fresh v0 v hv0).2.2.1
          obtain ⟨c1, c2⟩ := a2.addNode i hi (.dict d') _ hcell' hkeys hr
          refine ⟨_, _, _, _, rfl, c1, a3.trans c2, by simp [World.alloc], ?_⟩
          simp only [World.alloc]
          rw [extend_self]; exact hr
      | terms ts =>
        rw [hlc] at hcell
        obtain ⟨hb, hd⟩ := hcell
        have hd0 : linItems g0 ts = g0 i := by
          rw [← hgi, ← hd]
          exact (linItems_congr hb (fun j hj => h.ev.agree j (by omega))).symm
        obtain ⟨w1, g1, m1, ts', a1, a2, a3, a4, a5⟩ := copyItems_spec (copyNode share fuel) i
          (fun j hj => ih j (by omega) (by omega)) ts hb h
        simp only [a1]
        have hr : Renames m1.vars (g0 i) (linItems g1 ts') := by rw [← hd0]; exact a5
        have hcell' : CellOK (extend g1 w1.nodes.length (linItems g1 ts')) w1.nodes.length
            (.terms ts') := ⟨a4, by
              rw [extend_self]; exact linItems_congr a4 (fun k hk => extend_lt hk)⟩
        obtain ⟨c1, c2⟩ := a2.addNode i hi (.terms ts') _ hcell' (linItems_keys a2.ev.inv ts' a4) hr
        refine ⟨_, _, _, _, rfl, c1, a3.trans c2, by simp [World.alloc], ?_⟩
        simp only [World.alloc]
        rw [extend_self]; exact hr

/-! ### Copies -/

theorem SpecCopy.ofInv {w0 w : World F} {g0 g : NodeId → Lin F} {m : Memo}
    (h : CopyInv w0 g0 w g m) (qs qs' : List (SQ F))
    (hq : List.Forall₂ (fun q q' => q'.nom = q.nom ∧ Renames m.vars q.grad q'.grad ∧
      (∀ v, q.var = some v → ∃ v', q'.var = some v' ∧ (v, v') ∈ m.vars) ∧
      (q.var = none → q'.var = none)) qs qs') :
    SpecCopy w0.svars w.svars m.vars qs qs' := by
  obtain ⟨l, hl⟩ := h.old
  refine ⟨⟨l.map VarCell.abs, by simp [World.svars, hl]⟩, h.one, ?_, ?_, hq⟩
  · intro v v' hv
    simpa [World.svars] using h.fresh v v' hv
  · intro v' h1 h2
    exact h.all v' (by simpa [World.svars] using h1) (by simpa [World.svars] using h2)

theorem World.copyVar_spec {w : World F} {g : NodeId → Lin F} (h : Inv w g) (v : VarId)
    (hv : v < w.vars.length) :
    ∃ w' g' u', w.copyVar v = (w', .ok u') ∧ Evolves' w g w' g' ∧ u'.OK w' ∧
      w'.wraps = w.wraps ∧
      w'.svars = w.svars ++ w.svars[v]?.toList ∧
      u'.abs g' = { nom := w.vars[v].nom, grad := Lin.single w.vars.length,
                    var := some w.vars.length } := by
  have hg : w.vars[v]? = some w.vars[v] := List.getElem?_eq_getElem hv
  have hstd := h.std v _ hg
  obtain ⟨w1, g1, r, a1, a2, a3, a4⟩ := World.ufloat_spec h w.vars[v].nom w.vars[v].std
    w.vars[v].tag
  rw [hstd] at a4
  simp only [Bool.false_eq_true, if_false] at a4
  obtain ⟨a4, u, rfl, a5, a6⟩ := a4
  refine ⟨w1, g1, u, ?_, a2, a5, a3, ?_, a6⟩
  · simp only [World.copyVar, hg, a1]
  · rw [a4]
    simp [World.svars, hg, VarCell.abs]

/-- `q'` is the copy of `q`. -/
def IsCopy (ρ : List (VarId × VarId)) (q q' : SQ F) : Prop :=
  q'.nom = q.nom ∧ Renames ρ q.grad q'.grad ∧
    (∀ v, q.var = some v → ∃ v', q'.var = some v' ∧ (v, v') ∈ ρ) ∧ (q.var = none → q'.var = none)

theorem renames_single {ρ : List (VarId × VarId)} {v v' : VarId} (h : (v, v') ∈ ρ) :
    Renames ρ (Lin.single v : Lin F) (Lin.single v') := by
  refine ⟨fun x y hx => ?_, fun x y hx => ?_⟩
  · simp only [Lin.single] at hx
    split at hx
    · rename_i hxv; subst hxv; exact ⟨_, h, by simpa [Lin.single] using hx⟩
    · cases hx
  · simp only [Lin.single] at hx
    split at hx
    · rename_i hxv; subst hxv; exact ⟨_, h, by simpa [Lin.single] using hx⟩
    · cases hx

/-- Gradient of an object that is a variable. -/
theorem UF.OK.var_grad {w : World F} {g : NodeId → Lin F} (h : Inv w g) {u : UF F} (hu : u.OK w)
    {v : VarId} (hv : u.var = some v) : g u.lin = Lin.single v ∧ v < w.vars.length := by
  obtain ⟨cell, h1, h2, -⟩ := hu.2 v hv
  have := h.vars v cell h1
  rw [h2] at this
  exact ⟨this.2, (List.getElem?_eq_some_iff.mp h1).1⟩

theorem World.copyVar_copies {w : World F} {g : NodeId → Lin F} (h : Inv w g) {u : UF F}
    (hu : u.OK w) {v : VarId} (huv : u.var = some v) :
    ∃ w' g' u' ρ, w.copyVar v = (w', .ok u') ∧ Evolves' w g w' g' ∧ u'.OK w' ∧
      w'.wraps = w.wraps ∧ SpecCopy w.svars w'.svars ρ [u.abs g] [u'.abs g'] := by
  obtain ⟨hgrad, hv⟩ := hu.var_grad h huv
  obtain ⟨w1, g1, u1, a1, a2, a3, a4, a5, a6⟩ := World.copyVar_spec h v hv
  have hg : w.vars[v]? = some w.vars[v] := List.getElem?_eq_getElem hv
  have hs : w.svars[v]? = some w.vars[v].abs := by simp [World.svars, hg]
  have hlen : w.svars.length = w.vars.length := by simp [World.svars]
  refine ⟨w1, g1, u1, [(v, w.vars.length)], a1, a2, a3, a4, ⟨⟨_, a5⟩, ?_, ?_, ?_, ?_⟩⟩
  · exact ⟨by simp; intros; omega, by simp; intros; omega⟩
  · intro a b hab
    simp at hab
    obtain ⟨rfl, rfl⟩ := hab
    refine ⟨by omega, by omega, by rw [a5, hs]; simp [hlen], ?_⟩
    rw [a5, hs, ← hlen]; simp
  · intro v' h1 h2
    rw [a5, hs] at h2
    simp at h2
    have : v' = w.vars.length := by omega
    exact ⟨v, by simp [this]⟩
  · refine List.Forall₂.cons ⟨?_, ?_, ?_, ?_⟩ List.Forall₂.nil
    · rw [a6]
      obtain ⟨cell, h1, h2, h3⟩ := hu.2 v huv
      rw [hg] at h1
      cases h1
      exact h3
    · rw [a6]
      show Renames _ (g u.lin) _
      rw [hgrad]
      exact renames_single (by simp)
    · intro x hx
      have : v = x := by
        have hx' : u.var = some x := hx
        rw [huv] at hx'; exact Option.some.inj hx'
      subst this
      exact ⟨w.vars.length, by rw [a6], by simp⟩
    · intro hx
      have hx' : u.var = none := hx
      rw [huv] at hx'; cases hx'

theorem World.deepcopy_copies {w : World F} {g : NodeId → Lin F} (h : Inv w g) {u : UF F}
    (hu : u.OK w) :
    ∃ w' g' u' ρ, w.deepcopy u = (w', .ok u') ∧ Evolves' w g w' g' ∧ u'.OK w' ∧
      w'.wraps = w.wraps ∧ SpecCopy w.svars w'.svars ρ [u.abs g] [u'.abs g'] := by
  unfold World.deepcopy
  cases huv : u.var with
  | some v => exact World.copyVar_copies h hu huv
  | none =>
    obtain ⟨w1, g1, m1, n, a1, a2, a3, a4, a5⟩ := copyNode_spec (w0 := w) (g0 := g) false
      (u.lin + 1) u.lin (by omega) hu.1 w g Memo.empty (CopyInv.start h)
    refine ⟨w1, g1, { nom := u.nom, lin := n, var := none }, m1.vars, ?_, a2.ev,
      ⟨a4, by intro v hv; cases hv⟩, a2.wraps, SpecCopy.ofInv a2 _ _ ?_⟩
    · simp only [a1]
    · refine List.Forall₂.cons ⟨rfl, a5, ?_, fun _ => rfl⟩ List.Forall₂.nil
      intro v hv
      have hv' : u.var = some v := hv
      rw [huv] at hv'; cases hv'

theorem pickleOne_spec {w0 w : World F} {g0 g : NodeId → Lin F} {m : Memo}
    (h : CopyInv w0 g0 w g m) {u : UF F} (hu : u.OK w0) :
    ∃ w' g' m' u', pickleOne w m u = (w', m', .ok u') ∧ CopyInv w0 g0 w' g' m' ∧
      CopyStep w g m w' g' m' ∧ u'.OK w' ∧ IsCopy m'.vars (u.abs g0) (u'.abs g') := by
  unfold pickleOne
  cases huv : u.var with
  | some v =>
    obtain ⟨hgrad, hv⟩ := hu.var_grad h.inv0 huv
    obtain ⟨w1, g1, m1, v', a1, a2, a3, a4⟩ := copyVarMemo_spec true h v hv
    obtain ⟨b1, b2, b3, b4⟩ := a2.fresh v v' a4
    have hg : w1.vars[v']? = some w1.vars[v'] := List.getElem?_eq_getElem b3
    obtain ⟨c1, c2⟩ := a2.ev.inv.vars v' _ hg
    refine ⟨w1, g1, m1, { nom := w1.vars[v'].nom, lin := w1.vars[v'].lin, var := some v' }, ?_,
      a2, a3, ⟨c1, ?_⟩, ?_, ?_, ?_, ?_⟩
    · simp only [a1, hg]
    · intro x hx; cases hx; exact ⟨_, hg, rfl, rfl⟩
    · obtain ⟨cell, d1, d2, d3⟩ := hu.2 v huv
      have e1 : w1.svars[v']? = some w1.vars[v'].abs := by simp [World.svars, hg]
      have e2 : w0.svars[v]? = some cell.abs := by simp [World.svars, d1]
      rw [e1, e2] at b4
      have := congrArg SVar.nom (Option.some.inj b4)
      show w1.vars[v'].nom = u.nom
      rw [← d3]; exact this
    · show Renames _ (g0 u.lin) (g1 _)
      rw [hgrad, c2]
      exact renames_single a4
    · intro x hx
      have hx' : u.var = some x := hx
      rw [huv] at hx'
      cases hx'
      exact ⟨v', rfl, a4⟩
    · intro hx
      have hx' : u.var = none := hx
      rw [huv] at hx'; cases hx'
  | none =>
    obtain ⟨w1, g1, m1, n, a1, a2, a3, a4, a5⟩ := copyNode_spec (w0 := w0) (g0 := g0) true
      (u.lin + 1) u.lin (by omega) hu.1 w g m h
    refine ⟨w1, g1, m1, { nom := u.nom, lin := n, var := none }, ?_, a2, a3,
      ⟨a4, by intro v hv; cases hv⟩, rfl, a5, ?_, fun _ => rfl⟩
    · simp only [a1]
    · intro v hv
      have hv' : u.var = some v := hv
      rw [huv] at hv'; cases hv'

theorem pickleList_spec {w0 : World F} {g0 : NodeId → Lin F} (us : List (UF F))
    (hus : ∀ u ∈ us, u.OK w0) {w : World F} {g : NodeId → Lin F} {m : Memo}
    (h : CopyInv w0 g0 w g m) :
    ∃ w' g' m' us', pickleList us w m = (w', .ok us') ∧ CopyInv w0 g0 w' g' m' ∧
      CopyStep w g m w' g' m' ∧ (∀ u ∈ us', u.OK w') ∧
      List.Forall₂ (IsCopy m'.vars) (us.map (UF.abs g0)) (us'.map (UF.abs g')) := by
  induction us generalizing w g m with
  | nil =>
    exact ⟨w, g, m, [], rfl, h, CopyStep.refl h.ev.inv, by simp, List.Forall₂.nil⟩
  | cons u us ih =>
    obtain ⟨w1, g1, m1, u', a1, a2, a3, a4, a5⟩ := pickleOne_spec h (hus u (by simp))
    obtain ⟨w2, g2, m2, us', b1, b2, b3, b4, b5⟩ := ih (fun x hx => hus x (by simp [hx])) a2
    refine ⟨w2, g2, m2, u' :: us', ?_, b2, a3.trans b3, ?_, ?_⟩
    · simp only [pickleList, a1, b1]
    · intro x hx
      rcases List.mem_cons.mp hx with rfl | hx
      · exact UF.OK.evolves' b3.ev a4
      · exact b4 x hx
    · refine List.Forall₂.cons ?_ b5
      rw [UF.abs_evolves' b3.ev a4]
      obtain ⟨c1, c2, c3, c4⟩ := a5
      refine ⟨c1, c2.mono b3.mvars, ?_, c4⟩
      intro v hv
      obtain ⟨v', d1, d2⟩ := c3 v hv
      exact ⟨v', d1, b3.mvars _ d2⟩

theorem World.pickle_copies {w : World F} {g : NodeId → Lin F} (h : Inv w g) (us : List (UF F))
    (hus : ∀ u ∈ us, u.OK w) :
    ∃ w' g' us' ρ, w.pickle us = (w', .ok us') ∧ Evolves' w g w' g' ∧ (∀ u ∈ us', u.OK w') ∧
      w'.wraps = w.wraps ∧
      SpecCopy w.svars w'.svars ρ (us.map (UF.abs g)) (us'.map (UF.abs g')) := by
  obtain ⟨w1, g1, m1, us', a1, a2, a3, a4, a5⟩ := pickleList_spec us hus (CopyInv.start h)
  exact ⟨w1, g1, us', m1.vars, a1, a2.ev, a4, a2.wraps, SpecCopy.ofInv a2 _ _ a5⟩

end Unc
