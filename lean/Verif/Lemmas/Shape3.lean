import Verif.Lemmas.Shape2

/-
The invariant `Shape` for comparisons, copies and commands.
-/

namespace Unc

set_option linter.unusedSectionVars false
set_option autoImplicit false

section ops
variable {F : Type} [PyOps F]

/-- The subtraction of two numbers with uncertainty never fails. -/
theorem World.sub_shape {w : World F} (h : Shape w) (ho : HasOps w) {x y : UF F} (hx : x.Valid w)
    (hy : y.Valid w) :
    ∃ w' u, w.call BinOp.sub.id [.unc x, .unc y] [] = (w', .ok (.unc u)) ∧ Reads w w' ∧ u.Valid w' ∧
      u.nom = x.nom - y.nom := by
  obtain ⟨w', r, h1, h2, h3⟩ := World.call_shape h (ho.binop .sub) (args := [.unc x, .unc y])
    (kwargs := []) (by
      intro a ha
      simp only [List.mem_cons, List.not_mem_nil, or_false] at ha
      rcases ha with rfl | rfl
      · exact hx
      · exact hy) (by simp)
  have hp : (BinOp.sub.wrapDef : WrapDef F).f ([Val.unc x, .unc y].map Val.nominal) [] =
      .ok (.flt (x.nom - y.nom)) := rfl
  simp only [List.map_nil] at h3
  rw [hp] at h3
  cases h3 with
  | raises e h => cases h
  | plain v h hu => cases hu
  | notImpl v h hu hv => cases h; cases hv
  | notReal v e h hu hfl hv => cases h; cases hv
  | derivFails v e h hu hv hd =>
    exfalso
    rcases hd with ⟨i, u, a1, a2⟩ | ⟨n, u, a1, a2⟩
    · match i, a1 with
      | 0, _ => cases a2
      | 1, _ => cases a2
      | i + 2, a1 => simp at a1
    · simp at a1
  | unc z u h hu hv hn =>
    cases h
    exact ⟨w', u, h1, h2, hv, hn⟩

variable [Halts F]

theorem World.eqAff_shape {w : World F} (h : Shape w) (ho : HasOps w) {x y : UF F} (hx : x.Valid w)
    (hy : y.Valid w) :
    ∃ w' r, w.eqAff BinOp.sub.id x y = (w', r) ∧ Reads w w' ∧ Fine r := by
  obtain ⟨w1, u, h1, h2, h3, -⟩ := World.sub_shape h ho hx hy
  simp only [World.eqAff, h1]
  split
  · exact ⟨w1, _, rfl, h2, by simp [Fine]⟩
  · obtain ⟨w2, r, k1, k2, k3⟩ := World.stdDev_shape h2.shape h3
    simp only [k1]
    cases r with
    | error e => exact ⟨w2, _, rfl, h2.trans k2, by simpa [Fine] using k3⟩
    | ok s => exact ⟨w2, _, rfl, h2.trans k2, by simp [Fine]⟩

theorem World.cmpAff_shape {w : World F} (h : Shape w) (ho : HasOps w) (op : CmpOp) {x y : UF F}
    (hx : x.Valid w) (hy : y.Valid w) :
    ∃ w' r, w.cmpAff BinOp.sub.id op x y = (w', r) ∧ Reads w w' ∧ Fine r := by
  obtain ⟨w1, r, h1, h2, h3⟩ := World.eqAff_shape h ho hx hy
  cases op with
  | eq => exact ⟨w1, r, h1, h2, h3⟩
  | ne =>
    simp only [World.cmpAff, World.neAff, h1]
    cases r with
    | error e => exact ⟨w1, _, rfl, h2, by simpa [Fine] using h3⟩
    | ok b => exact ⟨w1, _, rfl, h2, by simp [Fine]⟩
  | gt => exact ⟨w, _, rfl, Reads.refl h, by simp [Fine]⟩
  | lt => exact ⟨w, _, rfl, Reads.refl h, by simp [Fine]⟩
  | ge =>
    simp only [World.cmpAff, World.geAff, World.gtAff]
    cases PyFloat.ltb y.nom x.nom with
    | true => exact ⟨w, _, rfl, Reads.refl h, by simp [Fine]⟩
    | false => exact ⟨w1, r, h1, h2, h3⟩
  | le =>
    simp only [World.cmpAff, World.leAff, World.ltAff]
    cases PyFloat.ltb x.nom y.nom with
    | true => exact ⟨w, _, rfl, Reads.refl h, by simp [Fine]⟩
    | false => exact ⟨w1, r, h1, h2, h3⟩

omit [Halts F] in
theorem World.toAffine_shape {w : World F} (h : Shape w) {x : Val F} (hx : x.Valid w) :
    ∃ w' r, w.toAffine x = (w', r) ∧ Reads w w' ∧ Fine r ∧
      (∀ u, r = .ok (some u) → u.Valid w' ∧ x.nominal = .flt u.nom ∧
        ((∃ y, x = .plain (.flt y)) → w'.nodes[u.lin]? = some (.dict []))) := by
  cases x with
  | unc u =>
    refine ⟨w, _, rfl, Reads.refl h, by simp [Fine], fun u' hu => ?_⟩
    cases hu
    exact ⟨hx, rfl, fun ⟨y, hy⟩ => by cases hy⟩
  | plain v =>
    cases v with
    | flt a =>
      refine ⟨_, _, rfl, h.alloc (.dict []) (fun d hd v hv => by cases hd; cases hv)
        (fun ts ht => by cases ht), by simp [Fine], fun u hu => ?_⟩
      cases hu
      exact ⟨⟨by simp [World.alloc], by simp⟩, rfl, fun _ => by simp [World.alloc]⟩
    | cplx => exact ⟨w, _, rfl, Reads.refl h, by simp [Fine], fun u hu => by cases hu⟩
    | other n => exact ⟨w, _, rfl, Reads.refl h, by simp [Fine], fun u hu => by cases hu⟩
    | notImpl => exact ⟨w, _, rfl, Reads.refl h, by simp [Fine], fun u hu => by cases hu⟩

theorem World.cmp_shape {w : World F} (h : Shape w) (ho : HasOps w) (op : CmpOp) {x : UF F} {y : Val F}
    (hx : x.Valid w) (hy : y.Valid w) :
    ∃ w' r, w.cmp BinOp.sub.id op x y = (w', r) ∧ Reads w w' ∧ Fine r := by
  obtain ⟨w1, r, h1, h2, h3, h4⟩ := World.toAffine_shape h hy
  simp only [World.cmp, h1]
  cases r with
  | error e => exact ⟨w1, _, rfl, h2, by simpa [Fine] using h3⟩
  | ok o =>
    cases o with
    | none => exact ⟨w1, _, rfl, h2, by simp [Fine]⟩
    | some y' =>
      obtain ⟨hy', -⟩ := h4 y' rfl
      obtain ⟨w2, r2, k1, k2, k3⟩ := World.cmpAff_shape h2.shape (ho.of_fns h2.fns) op
        (hx.grows h2.grows) hy'
      simp only [k1]
      cases r2 with
      | error e => exact ⟨w2, _, rfl, h2.trans k2, by simpa [Fine] using k3⟩
      | ok b => exact ⟨w2, _, rfl, h2.trans k2, by simp [Fine]⟩

theorem World.toBool_shape {w : World F} (h : Shape w) (ho : HasOps w) {x : UF F} (hx : x.Valid w) :
    ∃ w' r, w.toBool BinOp.sub.id x = (w', r) ∧ Reads w w' ∧ Fine r := by
  obtain ⟨w1, r, h1, h2, h3⟩ := World.cmp_shape h ho .ne hx (y := .plain (.flt 0)) trivial
  simp only [World.toBool, h1]
  cases r with
  | error e => exact ⟨w1, _, rfl, h2, by simpa [Fine] using h3⟩
  | ok o => cases o <;> exact ⟨w1, _, rfl, h2, by simp [Fine]⟩

end ops

section math
variable {F : Type} [PyMath F] [Halts F]

theorem World.cmpRun_shape {w : World F} (h : Shape w) (ho : HasOps w) (op : CmpOp) {x : UF F} {y : Val F}
    (hx : x.Valid w) (hy : y.Valid w) :
    ∃ w' r, w.cmpRun op x y = (w', r) ∧ Reads w w' ∧ Fine r := by
  obtain ⟨w1, r, h1, h2, h3⟩ := World.cmp_shape h ho op hx hy
  simp only [World.cmpRun, h1]
  cases r with
  | error e => exact ⟨w1, _, rfl, h2, by simpa [Fine] using h3⟩
  | ok o =>
    cases o with
    | none => exact ⟨w1, _, rfl, h2, by cases op <;> simp [CmpOp.fallback, Fine]⟩
    | some b => exact ⟨w1, _, rfl, h2, by simp [Fine]⟩

theorem World.compare_shape {w : World F} (h : Shape w) (ho : HasOps w) (op : CmpOp) {x y : Val F}
    (hx : x.Valid w) (hy : y.Valid w) :
    ∃ w' r, w.compare op x y = (w', r) ∧ Reads w w' ∧ Fine r := by
  cases x with
  | unc a =>
    cases y with
    | unc b =>
      simp only [World.compare]
      split
      · exact World.cmpRun_shape h ho _ hy hx
      · exact World.cmpRun_shape h ho _ hx hy
    | plain v => exact World.cmpRun_shape h ho _ hx hy
  | plain v =>
    cases y with
    | unc b => exact World.cmpRun_shape h ho _ hy hx
    | plain v => exact ⟨w, _, rfl, Reads.refl h, by simp [Fine]⟩

end math

/-! ### Copies -/

section copies
variable {F : Type} [PyFloat F]

theorem Grows.vars_length {w w' : World F} (h : Grows w w') : w.vars.length ≤ w'.vars.length := by
  by_contra hlt
  have : w'.vars.length < w.vars.length := by omega
  obtain ⟨c, hc, -⟩ := h.vars w'.vars.length w.vars[w'.vars.length]
    (List.getElem?_eq_getElem this)
  rw [List.getElem?_eq_none (Nat.le_refl _)] at hc
  cases hc

/-- The objects created by a copy are in the memo. -/
structure MemoOK (w : World F) (m : Memo) : Prop where
  nodes : ∀ p ∈ m.nodes, p.2 < w.nodes.length
  vars : ∀ p ∈ m.vars, ∃ c c', w.vars[p.1]? = some c ∧ w.vars[p.2]? = some c' ∧ c'.nom = c.nom

theorem MemoOK.empty (w : World F) : MemoOK w Memo.empty :=
  ⟨fun p hp => by simp [Memo.empty] at hp, fun p hp => by simp [Memo.empty] at hp⟩

theorem MemoOK.grows {w w' : World F} {m : Memo} (h : MemoOK w m) (hg : Grows w w') : MemoOK w' m := by
  refine ⟨fun p hp => Nat.lt_of_lt_of_le (h.nodes p hp) hg.len, fun p hp => ?_⟩
  obtain ⟨c, c', h1, h2, h3⟩ := h.vars p hp
  obtain ⟨d, a1, -, a3⟩ := hg.vars _ c h1
  obtain ⟨d', b1, -, b3⟩ := hg.vars _ c' h2
  exact ⟨d, d', a1, b1, by rw [a3, b3, h3]⟩

theorem mem_of_lookup_shape {β : Type} {l : List (Nat × β)} {k : Nat} {b : β} (h : l.lookup k = some b) :
    (k, b) ∈ l := by
  induction l with
  | nil => simp at h
  | cons p l ih =>
    obtain ⟨k', b'⟩ := p
    simp only [List.lookup] at h
    split at h
    · rename_i heq
      have : k = k' := by simpa using heq
      cases h; subst this; simp
    · exact List.mem_cons_of_mem _ (ih h)

theorem copyVarMemo_shape (share : Bool) {w : World F} (h : Shape w) {m : Memo} (hm : MemoOK w m)
    {v : VarId} (hv : v < w.vars.length) :
    ∃ w' m' v', copyVarMemo share w m v = (w', m', .ok v') ∧ Grows w w' ∧ w'.wraps = w.wraps ∧
      MemoOK w' m' ∧
      (∃ c c', w'.vars[v]? = some c ∧ w'.vars[v']? = some c' ∧ c'.nom = c.nom) := by
  unfold copyVarMemo
  cases hl : m.vars.lookup v with
  | some v' =>
    exact ⟨w, m, v', rfl, Grows.refl h, rfl, hm, hm.vars _ (mem_of_lookup_shape hl)⟩
  | none =>
    have hg : w.vars[v]? = some w.vars[v] := List.getElem?_eq_getElem hv
    generalize hc : w.vars[v] = cell at hg
    simp only [hg]
    have hstd := h.std v cell hg
    cases share with
    | true =>
      have hn := h.vars v cell hg
      simp only [if_true, hn]
      have hgr := h.addVar cell.nom cell.std cell.tag hstd
      refine ⟨_, _, _, rfl, hgr, rfl, ?_, ?_⟩
      · refine ⟨?_, ?_⟩
        · intro p hp
          rcases List.mem_cons.mp hp with rfl | hp
          · simp [World.alloc]
          · have := hm.nodes p hp
            simp [World.alloc]; omega
        · intro p hp
          rcases List.mem_cons.mp hp with rfl | hp
          · refine ⟨cell, { cell with lin := w.nodes.length }, ?_, ?_, rfl⟩
            · simp only [World.alloc]
              rw [List.getElem?_append_left hv]; exact hg
            · simp [World.alloc]
          · exact (hm.grows hgr).vars p hp
      · refine ⟨cell, { cell with lin := w.nodes.length }, ?_, ?_, rfl⟩
        · simp only [World.alloc]
          rw [List.getElem?_append_left hv]; exact hg
        · simp [World.alloc]
    | false =>
      obtain ⟨w', r, h1, h2, h3, h4⟩ := World.ufloat_shape h cell.nom cell.std cell.tag
      rcases h4 with ⟨hb, -⟩ | ⟨-, l, hvs, u, rfl, hu, hnom, hvar⟩
      · rw [hstd] at hb; cases hb
      · simp only [Bool.false_eq_true, if_false, h1, hvar]
        have e1 : w'.vars[v]? = some cell := by rw [hvs, List.getElem?_append_left hv]; exact hg
        have e2 : w'.vars[w.vars.length]? = some ⟨cell.nom, cell.std, cell.tag, l⟩ := by
          rw [hvs]; simp
        refine ⟨_, _, _, rfl, h2, h3, ⟨(hm.grows h2).nodes, ?_⟩, ⟨_, _, e1, e2, rfl⟩⟩
        intro p hp
        rcases List.mem_cons.mp hp with rfl | hp
        · exact ⟨_, _, e1, e2, rfl⟩
        · exact (hm.grows h2).vars p hp

theorem copyDict_shape (share : Bool) (d : Derivs F) {w : World F} (h : Shape w) {m : Memo}
    (hm : MemoOK w m) (hd : ∀ v ∈ d.map Prod.fst, v < w.vars.length) :
    ∃ w' m' d', copyDict share d w m = (w', m', .ok d') ∧ Grows w w' ∧ w'.wraps = w.wraps ∧
      MemoOK w' m' ∧ ∀ v ∈ d'.map Prod.fst, v < w'.vars.length := by
  induction d generalizing w m with
  | nil => exact ⟨w, m, [], rfl, Grows.refl h, rfl, hm, by simp⟩
  | cons p d ih =>
    obtain ⟨v, x⟩ := p
    obtain ⟨w1, m1, v', a1, a2, a3, a4, c, c', -, a5, -⟩ :=
      copyVarMemo_shape share h hm (hd v (by simp))
    obtain ⟨w2, m2, d', b1, b2, b3, b4, b5⟩ := ih a2.shape a4
      (fun u hu => Nat.lt_of_lt_of_le (hd u (by simp at hu ⊢; exact Or.inr hu)) a2.vars_length)
    refine ⟨w2, m2, (v', x) :: d', by simp only [copyDict, a1, b1], a2.trans b2, b3.trans a3, b4, ?_⟩
    intro u hu
    rcases List.mem_cons.mp hu with rfl | hu
    · exact Nat.lt_of_lt_of_le (List.getElem?_eq_some_iff.mp a5).1 b2.vars_length
    · exact b5 u hu

/-- What is needed from a function that copies objects. -/
def CopiesNodes (i : NodeId) (cp : NodeId → World F → Memo → World F × Memo × PyRes NodeId) : Prop :=
  ∀ (j : NodeId) (w : World F) (m : Memo), j < i → Shape w → MemoOK w m → j < w.nodes.length →
    ∃ w' m' j', cp j w m = (w', m', .ok j') ∧ Grows w w' ∧ w'.wraps = w.wraps ∧ MemoOK w' m' ∧
      j' < w'.nodes.length

theorem copyItems_shape (i : NodeId) (cp : NodeId → World F → Memo → World F × Memo × PyRes NodeId)
    (hcp : CopiesNodes i cp) (ts : List (Item F)) {w : World F} (h : Shape w) {m : Memo}
    (hm : MemoOK w m) (hi : i < w.nodes.length) (hts : ItemsBelow i ts) :
    ∃ w' m' ts', copyItems cp ts w m = (w', m', .ok ts') ∧ Grows w w' ∧ w'.wraps = w.wraps ∧
      MemoOK w' m' ∧ ItemsBelow w'.nodes.length ts' := by
  induction ts generalizing w m with
  | nil => exact ⟨w, m, [], rfl, Grows.refl h, rfl, hm, by intro t ht; cases ht⟩
  | cons t ts ih =>
    obtain ⟨c, j, rfl, hj⟩ := hts t (by simp)
    obtain ⟨w1, m1, ts', a1, a2, a3, a4, a5⟩ := ih h hm hi (fun t ht => hts t (by simp [ht]))
    obtain ⟨w2, m2, j', b1, b2, b3, b4, b5⟩ := hcp j w1 m1 hj a2.shape a4
      (by have := a2.len; omega)
    refine ⟨w2, m2, .pair c j' :: ts', by simp only [copyItems, a1, b1], a2.trans b2, b3.trans a3, b4, ?_⟩
    intro t ht
    rcases List.mem_cons.mp ht with rfl | ht
    · exact ⟨c, j', rfl, b5⟩
    · obtain ⟨c', k, rfl, hk⟩ := a5 t ht
      exact ⟨c', k, rfl, Nat.lt_of_lt_of_le hk b2.len⟩

theorem MemoOK.addNode {w : World F} {m : Memo} (h : MemoOK w m) (i j : NodeId)
    (hj : j < w.nodes.length) : MemoOK w ⟨(i, j) :: m.nodes, m.vars⟩ := by
  refine ⟨fun p hp => ?_, h.vars⟩
  rcases List.mem_cons.mp hp with rfl | hp
  · exact hj
  · exact h.nodes p hp

theorem copyNode_shape (share : Bool) (fuel : Nat) :
    CopiesNodes (F := F) fuel (copyNode share fuel) := by
  induction fuel with
  | zero => intro j w m hj; omega
  | succ fuel ih =>
    intro j w m hj h hm hlt
    unfold copyNode
    cases hl : m.nodes.lookup j with
    | some j' => exact ⟨w, m, j', rfl, Grows.refl h, rfl, hm, hm.nodes _ (mem_of_lookup_shape hl)⟩
    | none =>
      have hg : w.nodes[j]? = some w.nodes[j] := List.getElem?_eq_getElem hlt
      generalize w.nodes[j] = lc at hg
      simp only [hg]
      cases lc with
      | dict d =>
        obtain ⟨w1, m1, d', a1, a2, a3, a4, a5⟩ := copyDict_shape share d h hm (h.keys j d hg)
        simp only [a1]
        cases hl1 : m1.nodes.lookup j with
        | some j' => exact ⟨w1, m1, j', rfl, a2, a3, a4, a4.nodes _ (mem_of_lookup_shape hl1)⟩
        | none =>
          have hal := a2.shape.alloc (.dict d') (fun d hd => by cases hd; exact a5)
            (fun ts ht => by cases ht)
          have hlt' : w1.nodes.length < (w1.alloc (.dict d')).1.nodes.length := by simp [World.alloc]
          exact ⟨_, _, _, rfl, a2.trans hal.grows, a3, (a4.grows hal.grows).addNode j _ hlt', hlt'⟩
      | terms ts =>
        have hb := h.heap j ts hg
        have hcp : CopiesNodes j (copyNode (F := F) share fuel) :=
          fun k w m hk => ih k w m (by omega)
        obtain ⟨w1, m1, ts', a1, a2, a3, a4, a5⟩ := copyItems_shape j _ hcp ts h hm hlt hb
        simp only [a1]
        have hal := a2.shape.alloc (.terms ts') (fun d hd => by cases hd)
          (fun ts ht => by cases ht; exact a5)
        have hlt' : w1.nodes.length < (w1.alloc (.terms ts')).1.nodes.length := by simp [World.alloc]
        exact ⟨_, _, _, rfl, a2.trans hal.grows, a3, (a4.grows hal.grows).addNode j _ hlt', hlt'⟩

theorem World.copyVar_shape {w : World F} (h : Shape w) {v : VarId} {cell : VarCell F}
    (hv : w.vars[v]? = some cell) :
    ∃ w' u, w.copyVar v = (w', .ok u) ∧ Grows w w' ∧ u.Valid w' ∧ u.nom = cell.nom := by
  obtain ⟨w', r, h1, h2, h3, h4⟩ := World.ufloat_shape h cell.nom cell.std cell.tag
  rcases h4 with ⟨hb, -⟩ | ⟨-, l, hvs, u, rfl, hu, hnom, hvar⟩
  · rw [h.std v cell hv] at hb; cases hb
  · exact ⟨w', u, by simp [World.copyVar, hv, h1], h2, hu, hnom⟩

theorem World.copy_shape {w : World F} (h : Shape w) {u : UF F} (hu : u.Valid w) :
    ∃ w' u', w.copy u = (w', .ok u') ∧ Grows w w' ∧ u'.Valid w' ∧ u'.nom = u.nom := by
  unfold World.copy
  cases hv : u.var with
  | none => exact ⟨w, u, rfl, Grows.refl h, hu, rfl⟩
  | some v =>
    obtain ⟨cell, hc, -, hn⟩ := hu.2 v hv
    obtain ⟨w', u', h1, h2, h3, h4⟩ := World.copyVar_shape h hc
    exact ⟨w', u', h1, h2, h3, h4.trans hn⟩

theorem World.deepcopy_shape {w : World F} (h : Shape w) {u : UF F} (hu : u.Valid w) :
    ∃ w' u', w.deepcopy u = (w', .ok u') ∧ Grows w w' ∧ u'.Valid w' ∧ u'.nom = u.nom := by
  unfold World.deepcopy
  cases hv : u.var with
  | none =>
    obtain ⟨w1, m1, j, a1, a2, a3, a4, a5⟩ := copyNode_shape (F := F) false (u.lin + 1) u.lin w
      Memo.empty (by omega) h (MemoOK.empty w) hu.1
    simp only [a1]
    exact ⟨w1, _, rfl, a2, ⟨a5, by simp⟩, rfl⟩
  | some v =>
    obtain ⟨cell, hc, -, hn⟩ := hu.2 v hv
    obtain ⟨w', u', h1, h2, h3, h4⟩ := World.copyVar_shape h hc
    exact ⟨w', u', h1, h2, h3, h4.trans hn⟩

theorem pickleOne_shape {w : World F} (h : Shape w) {m : Memo} (hm : MemoOK w m) {u : UF F}
    (hu : u.Valid w) :
    ∃ w' m' u', pickleOne w m u = (w', m', .ok u') ∧ Grows w w' ∧ MemoOK w' m' ∧ u'.Valid w' ∧
      u'.nom = u.nom := by
  unfold pickleOne
  cases hv : u.var with
  | none =>
    obtain ⟨w1, m1, j, a1, a2, a3, a4, a5⟩ := copyNode_shape (F := F) true (u.lin + 1) u.lin w
      m (by omega) h hm hu.1
    simp only [a1]
    exact ⟨w1, _, _, rfl, a2, a4, ⟨a5, by simp⟩, rfl⟩
  | some v =>
    obtain ⟨cell, hc, -, hn⟩ := hu.2 v hv
    obtain ⟨w1, m1, v', a1, a2, a3, a4, c, c', a5, a6, a7⟩ :=
      copyVarMemo_shape true h hm (List.getElem?_eq_some_iff.mp hc).1
    simp only [a1, a6]
    refine ⟨w1, m1, _, rfl, a2, a4, ⟨?_, ?_⟩, ?_⟩
    · have := a2.shape.vars v' c' a6
      exact (List.getElem?_eq_some_iff.mp this).1
    · intro x hx
      cases hx
      exact ⟨c', a6, rfl, rfl⟩
    · obtain ⟨d, b1, -, b3⟩ := a2.vars v cell hc
      rw [a5] at b1
      cases b1
      simp only
      rw [a7, b3, hn]

theorem pickleList_shape (us : List (UF F)) {w : World F} (h : Shape w) {m : Memo} (hm : MemoOK w m)
    (hus : ∀ u ∈ us, u.Valid w) :
    ∃ w' us', pickleList us w m = (w', .ok us') ∧ Grows w w' ∧ (∀ u ∈ us', u.Valid w') ∧
      us'.map UF.nom = us.map UF.nom := by
  induction us generalizing w m with
  | nil => exact ⟨w, [], rfl, Grows.refl h, by simp, rfl⟩
  | cons u us ih =>
    obtain ⟨w1, m1, u', a1, a2, a3, a4, a5⟩ := pickleOne_shape h hm (hus u (by simp))
    obtain ⟨w2, us', b1, b2, b3, b4⟩ := ih a2.shape a3 (fun v hv => (hus v (by simp [hv])).grows a2)
    refine ⟨w2, u' :: us', by simp only [pickleList, a1, b1], a2.trans b2, ?_, by simp [a5, b4]⟩
    intro v hv
    rcases List.mem_cons.mp hv with rfl | hv
    · exact a4.grows b2
    · exact b3 v hv

end copies

/-! ### modf, ldexp, variables -/

section math
variable {F : Type} [PyMath F]

theorem World.variable_shape {w : World F} (h : Shape w) {u : UF F} (hu : u.Valid w) (v : VarId) :
    ∃ w' r, w.variable u v = (w', r) ∧ Reads w w' ∧ Fine r ∧
      (∀ u', r = .ok u' → u'.Valid w' ∧ u'.var = some v) := by
  obtain ⟨w', d, h1, h2, h3⟩ := World.derivatives_shape h hu
  simp only [World.variable, h1]
  cases hl : d.lookup v with
  | none => exact ⟨w', _, rfl, h2, by simp [Fine], fun u' hu' => by cases hu'⟩
  | some x =>
    cases hg : w'.vars[v]? with
    | none => exact ⟨w', _, rfl, h2, by simp [Fine], fun u' hu' => by cases hu'⟩
    | some cell =>
      refine ⟨w', _, rfl, h2, by simp [Fine], fun u' hu' => ?_⟩
      cases hu'
      refine ⟨⟨?_, ?_⟩, rfl⟩
      · exact (List.getElem?_eq_some_iff.mp (h2.shape.vars v cell hg)).1
      · intro v' hv'
        cases hv'
        exact ⟨cell, hg, rfl, rfl⟩

theorem World.linTruthy_ok {w : World F} {u : UF F} (hu : u.Valid w) : ∃ b, w.linTruthy u = .ok b := by
  have hlt : u.lin < w.nodes.length := hu.1
  exact ⟨_, by unfold World.linTruthy; rw [List.getElem?_eq_getElem hlt]⟩

theorem World.modf_shape {w : World F} (h : Shape w) {x : Val F} (hx : x.Valid w) :
    ∃ w' r, w.modf x = (w', r) ∧ Reads w w' ∧
      (∀ p, r = .ok p → p.1.Valid w' ∧ ∃ a, x.nominal = .flt a ∧ p.1.nominal = .flt (PyMath.modf a).1 ∧
        p.2 = (PyMath.modf a).2) := by
  obtain ⟨w1, r, h1, h2, -, h4⟩ := World.toAffine_shape h hx
  simp only [World.modf, h1]
  cases r with
  | error e => exact ⟨w1, _, rfl, h2, fun p hp => by cases hp⟩
  | ok o =>
    cases o with
    | none => exact ⟨w1, _, rfl, h2, fun p hp => by cases hp⟩
    | some u =>
      obtain ⟨hu, hn, -⟩ := h4 u rfl
      obtain ⟨b, hb⟩ := World.linTruthy_ok hu
      simp only [hb]
      cases b with
      | true =>
        refine ⟨w1, _, rfl, h2, fun p hp => ?_⟩
        cases hp
        exact ⟨⟨hu.1, by simp⟩, u.nom, hn, rfl, rfl⟩
      | false =>
        refine ⟨w1, _, rfl, h2, fun p hp => ?_⟩
        cases hp
        exact ⟨trivial, u.nom, hn, rfl, rfl⟩

theorem World.ldexp_shape {w : World F} (h : Shape w) {x : Val F} (hx : x.Valid w) (i : Int) :
    ∃ w' r, w.ldexp x i = (w', r) ∧ Reads w w' ∧
      (∀ y, r = .ok y → y.Valid w' ∧ ∃ a b, x.nominal = .flt a ∧ PyMath.ldexp a i = .ok b ∧
        y.nominal = .flt b) := by
  obtain ⟨w1, r, h1, h2, -, h4⟩ := World.toAffine_shape h hx
  simp only [World.ldexp, h1]
  cases r with
  | error e => exact ⟨w1, _, rfl, h2, fun p hp => by cases hp⟩
  | ok o =>
    cases o with
    | none => exact ⟨w1, _, rfl, h2, fun p hp => by cases hp⟩
    | some u =>
      obtain ⟨hu, hn, -⟩ := h4 u rfl
      obtain ⟨b, hb⟩ := World.linTruthy_ok hu
      simp only [hb]
      cases b with
      | true =>
        simp only []
        cases hl : PyMath.ldexp u.nom i with
        | error e => exact ⟨w1, _, rfl, h2, fun p hp => by cases hp⟩
        | ok r =>
          refine ⟨_, _, rfl, h2.trans (h2.shape.alloc (.terms [.pair (PyMath.pow2 i) u.lin])
            (fun d hd => by cases hd) ?_), fun p hp => ?_⟩
          · intro ts hts
            cases hts
            intro t ht
            simp at ht
            subst ht
            exact ⟨_, _, rfl, hu.1⟩
          · cases hp
            exact ⟨⟨by simp [World.alloc], by simp⟩, u.nom, r, hn, hl, rfl⟩
      | false =>
        simp only []
        split
        · rename_i a
          cases hl : PyMath.ldexp a i with
          | error e => exact ⟨w1, _, rfl, h2, fun p hp => by cases hp⟩
          | ok r =>
            refine ⟨w1, _, rfl, h2, fun p hp => ?_⟩
            cases hp
            exact ⟨trivial, a, r, rfl, hl, rfl⟩
        · exact ⟨w1, _, rfl, h2, fun p hp => by cases hp⟩

end math

end Unc
