import Verif.Lemmas.RoundingWorld
import Verif.Lemmas.Sees

/-
Every history with rounded floats, related to the exact chain rule.
-/

namespace Unc

set_option linter.unusedSectionVars false
set_option autoImplicit false

variable {F : Type} [PyMath F] [Rounded F]

def VarCell.rabs (c : VarCell F) : RVar F := ⟨c.nom, c.std⟩

/-- Relation between the states of the model and of the specification. -/
structure RRel (g : NodeId → Grad) (m : Machine F) (s : RState F) : Prop where
  inv : RndInv m.w g
  vars : s.vars = m.w.vars.map VarCell.rabs
  fns : s.fns = m.w.wraps.map Wrapped.df
  env : s.env = m.env.map (Option.map (Val.rabs g))
  ok : ∀ v, some v ∈ m.env → v.Valid m.w

theorem RRel.evolve {g : NodeId → Grad} {m : Machine F} {s : RState F} (h : RRel g m s)
    {w' : World F} {g' : NodeId → Grad} (he : REv m.w g w' g') : RRel g' ⟨w', m.env⟩ s := by
  refine ⟨he.inv, ?_, ?_, ?_, fun v hv => Val.Valid.grows he.reads.grows (h.ok v hv)⟩
  · rw [h.vars]; simp only [he.reads.vars]
  · rw [h.fns]; exact he.reads.fns.symm
  · show s.env = m.env.map _
    rw [h.env]
    apply List.map_congr_left
    intro o ho
    cases o with
    | none => rfl
    | some v => simp only [Option.map]; rw [Val.rabs_agree he.agree (h.ok v ho)]

theorem RRel.push {g : NodeId → Grad} {m : Machine F} {s : RState F} (h : RRel g m s)
    (l : List (Option (Val F))) (hl : ∀ v, some v ∈ l → v.Valid m.w) :
    RRel g ⟨m.w, m.env ++ l⟩ { s with env := s.env ++ l.map (Option.map (Val.rabs g)) } := by
  refine ⟨h.inv, h.vars, h.fns, ?_, ?_⟩
  · simp [h.env]
  · intro v hv
    rcases List.mem_append.mp hv with hv | hv
    · exact h.ok v hv
    · exact hl v hv

theorem RRel.skip {g : NodeId → Grad} {m : Machine F} {s : RState F} (h : RRel g m s) (n : Nat) :
    RRel g ⟨m.w, m.env ++ List.replicate n none⟩ (s.skip n) := by
  have := h.push (List.replicate n none) (by intro v hv; simp at hv)
  simpa [RState.skip] using this

theorem RRel.eval {g : NodeId → Grad} {m : Machine F} {s : RState F} (h : RRel g m s)
    (a : Arg F) : a.reval s.env = (a.eval m.env).map (Val.rabs g) := by
  cases a with
  | const v => rfl
  | ref k =>
    simp only [Arg.reval, Arg.eval, h.env, List.getElem?_map]
    cases m.env[k]? <;> simp

theorem RRel.mshape {g : NodeId → Grad} {m : Machine F} {s : RState F} (h : RRel g m s) :
    MShape m := ⟨h.inv.shape, h.inv.ops, h.ok⟩

theorem RRel.evalUnc {g : NodeId → Grad} {m : Machine F} {s : RState F} (h : RRel g m s)
    (a : Arg F) : a.revalUnc s.env = (a.evalUnc m.env).map (UF.rabs g) := by
  simp only [Arg.revalUnc, Arg.evalUnc, h.eval a]
  cases a.eval m.env with
  | none => rfl
  | some v => cases v <;> rfl

theorem RRel.evalItems {g : NodeId → Grad} {m : Machine F} {s : RState F} (h : RRel g m s)
    (items : List (Arg F × F)) :
    evalArgs (Arg.revalItem s.env) items = evalArgs (Arg.evalItem m.env) items := by
  induction items with
  | nil => rfl
  | cons p items ih =>
    have : Arg.revalItem s.env p = Arg.evalItem m.env p := by
      simp only [Arg.revalItem, Arg.evalItem, h.evalUnc]
      cases p.1.evalUnc m.env <;> rfl
    simp only [evalArgs, this, ih]

theorem RRel.evalKw {g : NodeId → Grad} {m : Machine F} {s : RState F} (h : RRel g m s)
    (p : String × Arg F) :
    Arg.revalKw s.env p = (Arg.evalKw m.env p).map (fun p => (p.1, p.2.rabs g)) := by
  simp only [Arg.revalKw, Arg.evalKw, h.eval]
  cases p.2.eval m.env <;> rfl

theorem RRel.evalKw_ok {g : NodeId → Grad} {m : Machine F} {s : RState F} (h : RRel g m s)
    {p : String × Arg F} {q : String × Val F} (hp : Arg.evalKw m.env p = some q) :
    q.2.Valid m.w := by
  simp only [Arg.evalKw] at hp
  cases hv : p.2.eval m.env with
  | none => simp [hv] at hp
  | some v =>
    simp [hv] at hp
    subst hp
    exact h.mshape.eval hv

/-- Binding the result of an operation. -/
theorem RRel.bind {g g' : NodeId → Grad} {m : Machine F} {s : RState F} (h : RRel g m s)
    {w' : World F} (he : REv m.w g w' g') {r : PyRes (Val F)} {sr : PyRes (RVal F)}
    (hr : RRes w' g' r sr) : ∃ g'', RRel g'' (Machine.bind m.env w' r).1 (s.bind sr) := by
  have h1 := h.evolve he
  obtain ⟨rfl, hok⟩ := hr
  cases r with
  | error e => exact ⟨g', h1.skip 1⟩
  | ok v =>
    have h2 := h1.push [some v] (by
      intro x hx; simp at hx; subst hx; exact hok _ rfl)
    cases v with
    | unc u => exact ⟨g', h2⟩
    | plain p =>
      cases p with
      | flt x => exact ⟨g', h2⟩
      | cplx => exact ⟨g', h2⟩
      | other _ => exact ⟨g', h2⟩
      | notImpl => exact ⟨g', h1.skip 1⟩

/-! ### Quantities without variables -/

theorem World.isConst_rounded {w : World F} {g : NodeId → Grad} (h : RndInv w g) {x : Val F}
    (hx : x.Valid w) : w.isConst x = (x.rabs g).isConst w.vars.length := by
  cases x with
  | plain _ => rfl
  | unc u =>
    obtain ⟨w', d, a1, a2, a3, a4, a5⟩ := World.derivatives_rounded h hx
    simp only [World.isConst, a1, Val.rabs_unc, RVal.isConst, UF.rabs]
    cases d with
    | nil =>
      have : (List.range w.vars.length).any (fun v => (g u.lin v).isSome) = false := by
        rw [List.any_eq_false]
        intro v _
        rw [← (a4 v).isSome]
        simp
      simp [this]
    | cons p d =>
      have hv : (g u.lin p.1).isSome = true := by
        rw [← (a4 p.1).isSome]; obtain ⟨a, b⟩ := p; simp [List.lookup]
      have hlt := a5 p.1 (by simp)
      have : (List.range w.vars.length).any (fun v => (g u.lin v).isSome) = true :=
        List.any_eq_true.mpr ⟨p.1, List.mem_range.mpr hlt, hv⟩
      simp [this]

theorem World.linTruthy_rounded {w : World F} {g : NodeId → Grad} (h : RndInv w g) {u : UF F}
    (hu : u.Valid w) {n : Nat} (hn : (Val.rabs g (.unc u)).isConst n = false) :
    w.linTruthy u = .ok true := by
  simp only [Val.rabs_unc, RVal.isConst, UF.rabs, Bool.not_eq_false', List.any_eq_true] at hn
  obtain ⟨v, -, hv⟩ := hn
  have hlt := hu.1
  have hg : w.nodes[u.lin]? = some w.nodes[u.lin] := List.getElem?_eq_getElem hlt
  have hc := h.den.cell _ _ hg
  simp only [World.linTruthy, hg]
  cases hl : w.nodes[u.lin] with
  | dict d =>
    rw [hl] at hc
    cases d with
    | nil => have := (hc.2 v).isSome; rw [hv] at this; simp at this
    | cons _ _ => rfl
  | terms ts =>
    rw [hl] at hc
    cases ts with
    | nil => rw [← hc.2] at hv; simp [gradItems, Grad.zero] at hv
    | cons _ _ => rfl

theorem RndInv.allocNil {w : World F} {g : NodeId → Grad} (h : RndInv w g) :
    REv w g (w.alloc (.dict [])).1 (rextend g w.nodes.length (Grad.ofDict ([] : Derivs F))) :=
  h.ev (h.shape.alloc (.dict []) (fun d hd => by cases hd; simp) (fun ts hts => by cases hts))
    (h.den.allocDict (by simp [KeysNodup])) (fun i hi => rextend_lt hi)

/-- Result of `modf`. -/
theorem Machine.modf_rounded {g : NodeId → Grad} {m : Machine F} {s : RState F} (h : RRel g m s)
    (x : Arg F) : ∃ g', RRel g' (m.step (.modf x)).1 (s.step (.modf x)) := by
  simp only [Machine.step, RState.step, h.eval x]
  cases hx : x.eval m.env with
  | none => exact ⟨g, h.skip 2⟩
  | some v =>
    have hv1 := h.mshape.eval hx
    have hlen : s.vars.length = m.w.vars.length := by rw [h.vars]; simp
    simp only [Option.map, World.isConst_rounded h.inv hv1, hlen]
    cases hcst : (v.rabs g).isConst m.w.vars.length with
    | true => exact ⟨g, h.skip 2⟩
    | false =>
      simp only [Bool.false_eq_true, if_false]
      cases v with
      | unc u =>
        have ht := World.linTruthy_rounded h.inv hv1 hcst
        simp only [World.modf, World.toAffine, ht, Val.rabs_unc]
        exact ⟨g, h.push [some (.unc { nom := (PyMath.modf u.nom).1, lin := u.lin, var := none }),
          some (.plain (.flt (PyMath.modf u.nom).2))] (by
            intro x hx
            simp at hx
            rcases hx with rfl | rfl
            · exact ⟨hv1.1, fun v hv => by cases hv⟩
            · trivial)⟩
      | plain v =>
        cases v with
        | flt z =>
          have e : (m.w.alloc (LC.dict [])).1.linTruthy
              ({ nom := z, lin := (m.w.alloc (LC.dict [])).2, var := none } : UF F) = .ok false := by
            simp [World.linTruthy, World.alloc, LC.truthy]
          simp only [World.modf, World.toAffine, e, Val.rabs]
          have h1 := h.evolve h.inv.allocNil
          exact ⟨_, h1.push [some (.plain (.flt (PyMath.modf z).1)),
            some (.plain (.flt (PyMath.modf z).2))] (by
              intro x hx
              simp at hx
              rcases hx with rfl | rfl <;> trivial)⟩
        | cplx => exact ⟨g, h.skip 2⟩
        | other _ => exact ⟨g, h.skip 2⟩
        | notImpl => exact ⟨g, h.skip 2⟩

theorem Machine.ldexp_rounded {g : NodeId → Grad} {m : Machine F} {s : RState F} (h : RRel g m s)
    (x : Arg F) (i : Int) : ∃ g', RRel g' (m.step (.ldexp x i)).1 (s.step (.ldexp x i)) := by
  simp only [Machine.step, RState.step, h.eval x]
  cases hx : x.eval m.env with
  | none => exact ⟨g, h.skip 1⟩
  | some v =>
    have hv1 := h.mshape.eval hx
    have hlen : s.vars.length = m.w.vars.length := by rw [h.vars]; simp
    simp only [Option.map, World.isConst_rounded h.inv hv1, hlen]
    cases hcst : (v.rabs g).isConst m.w.vars.length with
    | true => exact ⟨g, h.skip 1⟩
    | false =>
      simp only [Bool.false_eq_true, if_false]
      cases v with
      | unc u =>
        have ht := World.linTruthy_rounded h.inv hv1 hcst
        simp only [World.ldexp, World.toAffine, ht, Val.rabs_unc]
        cases hl : PyMath.ldexp u.nom i with
        | error e =>
          simp only [UF.rabs, hl]
          exact ⟨g, h.skip 1⟩
        | ok r =>
          have hb : ItemsBelow m.w.nodes.length [Item.pair (PyMath.pow2 i : F) u.lin] := by
            intro t ht; simp at ht; exact ⟨_, _, ht, hv1.1⟩
          have h1 := h.evolve (h.inv.allocTerms hb)
          have h2 := h1.push [some (.unc { nom := r, lin := m.w.nodes.length, var := none })] (by
            intro x hx
            simp at hx
            subst hx
            exact ⟨by simp [World.alloc], fun v hv => by cases hv⟩)
          simp only [List.map_cons, List.map_nil, Option.map, Val.rabs, UF.rabs, rextend_self] at h2
          simp only [UF.rabs, hl]
          exact ⟨_, h2⟩
      | plain v =>
        cases v with
        | flt z =>
          have e : (m.w.alloc (LC.dict [])).1.linTruthy
              ({ nom := z, lin := (m.w.alloc (LC.dict [])).2, var := none } : UF F) = .ok false := by
            simp [World.linTruthy, World.alloc, LC.truthy]
          simp only [World.ldexp, World.toAffine, e, Val.rabs]
          have h1 := h.evolve h.inv.allocNil
          cases hl : PyMath.ldexp z i with
          | error e => exact ⟨_, h1.skip 1⟩
          | ok r =>
            exact ⟨_, h1.push [some (.plain (.flt r))] (by
              intro x hx
              simp at hx
              subst hx
              trivial)⟩
        | cplx => exact ⟨g, h.skip 1⟩
        | other _ => exact ⟨g, h.skip 1⟩
        | notImpl => exact ⟨g, h.skip 1⟩

/-! ### Variables -/

theorem Machine.ufloat_rounded {g : NodeId → Grad} {m : Machine F} {s : RState F} (h : RRel g m s)
    (n std : F) (tag : Option String) :
    ∃ g', RRel g' (m.step (.ufloat n std tag)).1 (s.step (.ufloat n std tag)) := by
  have hlen : s.vars.length = m.w.vars.length := by rw [h.vars]; simp
  simp only [Machine.step, RState.step, hlen]
  cases hb : specBadStd std with
  | true =>
    have hb' : (PyFloat.ltb std 0 && !PyFloat.isInf std) = true := hb
    simp only [World.ufloat, hb', if_true]
    exact ⟨g, h.skip 1⟩
  | false =>
    have hb' : (PyFloat.ltb std 0 && !PyFloat.isInf std) = false := hb
    have hg := h.inv.shape.addVar n std tag hb
    simp only [World.ufloat, hb', Bool.false_eq_true, if_false]
    have hden : RDenotes (m.w.nodes ++ [LC.dict [(m.w.vars.length, (1 : F))]])
        (rextend g m.w.nodes.length (Grad.single m.w.vars.length)) := by
      refine h.inv.den.alloc _ _ (Grad.OK.single _) ⟨by simp [KeysNodup], fun v => ?_⟩
      rw [rextend_self]
      exact DictOK.single _ _
    refine ⟨rextend g m.w.nodes.length (Grad.single m.w.vars.length), ⟨hg.shape, h.inv.ops, hden, ?_⟩,
      ?_, h.fns, ?_, ?_⟩
    · intro v cell hv
      simp only [World.alloc] at hv
      by_cases hlt : v < m.w.vars.length
      · rw [List.getElem?_append_left hlt] at hv
        rw [rextend_lt (List.getElem?_eq_some_iff.mp (h.inv.shape.vars v cell hv)).1]
        exact h.inv.vlin v cell hv
      · have hl := (List.getElem?_eq_some_iff.mp hv).1
        have : v = m.w.vars.length := by simp at hl; omega
        subst this
        simp at hv
        subst hv
        exact rextend_self
    · simp [h.vars, World.alloc, VarCell.rabs]
    · simp only [List.map_append, List.map_cons, List.map_nil, Option.map, Val.rabs, UF.rabs]
      rw [h.env]
      congr 1
      · apply List.map_congr_left
        intro o ho
        cases o with
        | none => rfl
        | some v =>
          simp only [Option.map]
          rw [Val.rabs_agree (fun i hi => rextend_lt hi) (h.ok v ho)]
      · simp [World.alloc, rextend_self]
    · intro v hv
      rcases List.mem_append.mp hv with hv | hv
      · exact Val.Valid.grows hg (h.ok v hv)
      · simp at hv
        subst hv
        refine ⟨by simp [World.alloc], fun v hv => ?_⟩
        cases hv
        exact ⟨⟨n, std, tag, m.w.nodes.length⟩, by simp [World.alloc], rfl, rfl⟩

theorem Machine.affine_rounded {g : NodeId → Grad} {m : Machine F} {s : RState F} (h : RRel g m s)
    (n : F) (items : List (Arg F × F)) :
    ∃ g', RRel g' (m.step (.affine n items)).1 (s.step (.affine n items)) := by
  simp only [Machine.step, RState.step, h.evalItems items]
  cases hx : evalArgs (Arg.evalItem m.env) items with
  | none => exact ⟨g, h.skip 1⟩
  | some d =>
    simp only
    by_cases hn : (d.map Prod.fst).Nodup
    · simp only [hn, if_true]
      have hk : ∀ v ∈ d.map Prod.fst, v < m.w.vars.length := by
        intro v hv
        obtain ⟨q, hq, rfl⟩ := List.mem_map.mp hv
        obtain ⟨p, -, hp⟩ := evalArgs_mem hx _ hq
        simp only [Arg.evalItem] at hp
        cases hu : p.1.evalUnc m.env with
        | none => simp [hu] at hp
        | some u =>
          simp only [hu, Option.bind_some, Option.map_eq_some_iff] at hp
          obtain ⟨v', e1, rfl⟩ := hp
          obtain ⟨cell, c1, -⟩ := (h.mshape.evalUnc hu).2 v' e1
          exact (List.getElem?_eq_some_iff.mp c1).1
      have he : REv m.w g (m.w.alloc (.dict d)).1 (rextend g m.w.nodes.length (Grad.ofDict d)) :=
        h.inv.ev (h.inv.shape.alloc (.dict d) (fun d' hd' => by cases hd'; exact hk)
          (fun ts hts => by cases hts)) (h.inv.den.allocDict hn) (fun i hi => rextend_lt hi)
      have h2 := (h.evolve he).push [some (.unc { nom := n, lin := m.w.nodes.length, var := none })] (by
        intro x hx; simp at hx; subst hx
        exact ⟨by simp [World.alloc], fun v hv => by cases hv⟩)
      refine ⟨rextend g m.w.nodes.length (Grad.ofDict d), ?_⟩
      have e : (m.w.alloc (.dict d)).2 = m.w.nodes.length := rfl
      rw [e]
      simpa [Val.rabs, UF.rabs, rextend_self] using h2
    · simp only [hn, if_false]
      exact ⟨g, h.skip 1⟩

theorem Machine.variable_rounded {g : NodeId → Grad} {m : Machine F} {s : RState F} (h : RRel g m s)
    (x : Arg F) (v : VarId) :
    ∃ g', RRel g' (m.step (.variable x v)).1 (s.step (.variable x v)) := by
  simp only [Machine.step, RState.step, h.evalUnc x]
  cases hx : x.evalUnc m.env with
  | none => exact ⟨g, h.skip 1⟩
  | some u =>
    have hok := h.mshape.evalUnc hx
    obtain ⟨w', d, a1, a2, a3, a4, a5⟩ := World.derivatives_rounded h.inv hok
    have h1 := h.evolve a2
    have hlook := (a4 v).isSome
    simp only [World.variable, a1, Option.map, UF.rabs]
    cases hl : d.lookup v with
    | none =>
      rw [hl] at hlook
      cases hgv : g u.lin v with
      | none => exact ⟨g, h1.skip 1⟩
      | some I => rw [hgv] at hlook; cases hlook
    | some y =>
      rw [hl] at hlook
      cases hgv : g u.lin v with
      | none => rw [hgv] at hlook; cases hlook
      | some I =>
        have hv := a5 v (mem_keys_of_lookup hl)
        have hc : m.w.vars[v]? = some m.w.vars[v] := List.getElem?_eq_getElem hv
        have hc' : w'.vars[v]? = some m.w.vars[v] := by rw [a2.reads.vars, hc]
        have hs : s.vars[v]? = some m.w.vars[v].rabs := by simp [h.vars, hc]
        simp only [hc', hs]
        have b1 := (List.getElem?_eq_some_iff.mp (a2.inv.shape.vars v _ hc')).1
        have b2 := a2.inv.vlin v _ hc'
        have h2 := h1.push [some (.unc ⟨m.w.vars[v].nom, m.w.vars[v].lin, some v⟩)] (by
          intro x hx; simp at hx; subst hx
          refine ⟨b1, fun x hx => ?_⟩
          cases hx; exact ⟨_, hc', rfl, rfl⟩)
        exact ⟨g, by simpa [Val.rabs, UF.rabs, b2, VarCell.rabs] using h2⟩

theorem Machine.setStd_rounded {g : NodeId → Grad} {m : Machine F} {s : RState F} (h : RRel g m s)
    (x : Arg F) (std : F) : RRel g (m.step (.setStd x std)).1 (s.step (.setStd x std)) := by
  simp only [Machine.step, Machine.read, RState.step, h.evalUnc x]
  cases hx : x.evalUnc m.env with
  | none => simpa [Machine.invalid, RState.skip] using h.skip 0
  | some u =>
    simp only [World.assignStd, Option.map, Option.bind_some, UF.rabs]
    cases huv : u.var with
    | none => exact h
    | some v =>
      obtain ⟨w', r, a1, a2, -⟩ := World.setStd_shape h.inv.shape v std
      have hv : s.vars[v]? = (m.w.vars[v]?).map VarCell.rabs := by simp [h.vars]
      simp only [hv]
      cases hg : m.w.vars[v]? with
      | none =>
        simp only [World.setStd, hg, mapRes]
        exact h
      | some cell =>
        simp only [Option.map]
        cases hb : specBadStd std with
        | true =>
          have hb' : (PyFloat.ltb std 0 && !PyFloat.isInf std) = true := hb
          simp only [World.setStd, hg, mapRes, hb', if_true]
          exact h
        | false =>
          have hb' : (PyFloat.ltb std 0 && !PyFloat.isInf std) = false := hb
          simp only [World.setStd, hg, hb', Bool.false_eq_true, if_false, Prod.mk.injEq] at a1
          obtain ⟨rfl, rfl⟩ := a1
          simp only [World.setStd, hg, mapRes, hb', Bool.false_eq_true, if_false, Except.map]
          refine ⟨⟨a2.shape, h.inv.ops.of_fns a2.fns, h.inv.den, ?_⟩, ?_, h.fns, h.env, ?_⟩
          · intro k c hk
            by_cases e : v = k
            · subst e
              rw [List.getElem?_set_self (List.getElem?_eq_some_iff.mp hg).1] at hk
              cases hk
              exact h.inv.vlin v cell hg
            · rw [List.getElem?_set_ne e] at hk
              exact h.inv.vlin k c hk
          · simp only [List.map_set, h.vars]
            rfl
          · exact fun v hv => Val.Valid.grows a2 (h.ok v hv)

/-- A command that reads something. -/
theorem Machine.read_rounded [Halts F] {g : NodeId → Grad} {m : Machine F} {s : RState F}
    (h : RRel g m s) {c : Cmd F} (hc : c.isRead = true) : ∃ g', RRel g' (m.step c).1 s := by
  have h0 := Machine.step_ok h.mshape c
  have hs := Machine.step_h h.mshape c hc
  obtain ⟨g', a1, a2, a3⟩ := hs.rounded h.inv.den
  obtain ⟨b1, b2, -⟩ := h0.read hc
  have hr : Reads m.w (m.step c).1.w :=
    ⟨h0.shape.shape, a2, b2, by rw [h0.fns, Cmd.read_defs hc, List.append_nil]⟩
  have := h.evolve (h.inv.ev hr a1 a3)
  rw [← b1] at this
  exact ⟨g', this⟩

/-- Every command, except copies, behaves as specified. -/
theorem Machine.step_rounded [Halts F] {g : NodeId → Grad} {m : Machine F} {s : RState F}
    (h : RRel g m s) {c : Cmd F} (hc : c.isCopy = false) : ∃ g', RRel g' (m.step c).1 (s.step c) := by
  cases c with
  | ufloat n std tag => exact Machine.ufloat_rounded h n std tag
  | affine n items => exact Machine.affine_rounded h n items
  | wrap df =>
    have h0 := (Machine.step_ok h.mshape (.wrap df)).shape
    refine ⟨g, ⟨h0.shape, h0.ops, h.inv.den, h.inv.vlin⟩, h.vars, ?_, h.env, h0.env⟩
    simp [RState.step, Machine.step, World.wrap, h.fns, mkWrapped]
  | call f args kwargs =>
    simp only [Machine.step, RState.step]
    have hfns : s.fns[f]? = (m.w.wraps[f]?).map Wrapped.df := by rw [h.fns]; simp
    by_cases hf : f < m.w.wraps.length
    · have hg : m.w.wraps[f]? = some m.w.wraps[f] := List.getElem?_eq_getElem hf
      rw [hfns, hg]
      simp only [hf, if_true, Option.map]
      rw [evalArgs_map (Arg.eval m.env) (Arg.reval s.env) (Val.rabs g) h.eval args,
        evalArgs_map (Arg.evalKw m.env) (Arg.revalKw s.env) (fun p => (p.1, p.2.rabs g)) h.evalKw
          kwargs]
      cases ha : evalArgs (Arg.eval m.env) args with
      | none => exact ⟨g, h.skip 1⟩
      | some a =>
        cases hk : evalArgs (Arg.evalKw m.env) kwargs with
        | none => exact ⟨g, h.skip 1⟩
        | some k =>
          have hao : ∀ x ∈ a, x.Valid m.w := by
            intro x hx
            obtain ⟨_, _, e⟩ := evalArgs_mem ha x hx
            exact h.mshape.eval e
          have hko : ∀ x ∈ k, x.2.Valid m.w := by
            intro x hx
            obtain ⟨_, _, e⟩ := evalArgs_mem hk x hx
            exact h.evalKw_ok e
          obtain ⟨w', g', r, a1, a2, a3⟩ := World.call_rounded h.inv f _ hg a k hao hko
          simp only [a1, Option.map]
          exact h.bind a2 a3
    · have hg : m.w.wraps[f]? = none := by simp; omega
      rw [hfns, hg]
      simp only [hf, if_false, Option.map]
      exact ⟨g, h.skip 1⟩
  | unop op x =>
    simp only [Machine.step, RState.step, h.evalUnc x]
    cases hx : x.evalUnc m.env with
    | none => exact ⟨g, h.skip 1⟩
    | some u =>
      obtain ⟨w', g', r, a1, a2, a3⟩ := World.unop_rounded h.inv op (h.mshape.evalUnc hx)
      simp only [a1, Option.map]
      exact h.bind a2 a3
  | binop op x y =>
    simp only [Machine.step, RState.step, h.eval x, h.eval y]
    cases hx : x.eval m.env with
    | none => exact ⟨g, h.skip 1⟩
    | some a =>
      cases hy : y.eval m.env with
      | none => exact ⟨g, h.skip 1⟩
      | some b =>
        simp only [Option.map, Val.rabs_isUnc]
        by_cases hu : (a.isUnc || b.isUnc) = true
        · simp only [hu, if_true]
          obtain ⟨w', g', r, a1, a2, a3⟩ := World.binop_rounded h.inv op (h.mshape.eval hx)
            (h.mshape.eval hy)
          simp only [a1]
          exact h.bind a2 a3
        · simp only [hu]
          exact ⟨g, h.skip 1⟩
  | modf x => exact Machine.modf_rounded h x
  | ldexp x i => exact Machine.ldexp_rounded h x i
  | lcst f args kwargs =>
    simp only [Machine.step, RState.step]
    rw [evalArgs_map (Arg.eval m.env) (Arg.reval s.env) (Val.rabs g) h.eval args,
      evalArgs_map (Arg.evalKw m.env) (Arg.revalKw s.env) (fun p => (p.1, p.2.rabs g)) h.evalKw
        kwargs]
    cases ha : evalArgs (Arg.eval m.env) args with
    | none => exact ⟨g, h.skip 1⟩
    | some a =>
      cases hk : evalArgs (Arg.evalKw m.env) kwargs with
      | none => exact ⟨g, h.skip 1⟩
      | some k =>
        simp only [Option.map]
        have e1 : (a.map (Val.rabs g)).map RVal.nominal = a.map Val.nominal := by
          rw [List.map_map]; exact List.map_congr_left fun x _ => by cases x <;> rfl
        have e2 : (k.map fun p => (p.1, p.2.rabs g)).map (fun p => (p.1, p.2.nominal)) =
            k.map (fun p => (p.1, p.2.nominal)) := by
          rw [List.map_map]; exact List.map_congr_left fun x _ => by
            obtain ⟨n, x⟩ := x; cases x <;> rfl
        refine h.bind (REv.refl h.inv) ?_
        simp only [wrapLocallyCst, e1, e2]
        cases f (a.map Val.nominal) (k.map fun p => (p.1, p.2.nominal)) with
        | error e => exact ⟨rfl, fun v hv => by cases hv⟩
        | ok v => exact ⟨rfl, fun v hv => by cases hv; trivial⟩
  | copy x => cases hc
  | deepcopy x => cases hc
  | pickle xs => cases hc
  | «variable» x v => exact Machine.variable_rounded h x v
  | setStd x std => exact ⟨g, Machine.setStd_rounded h x std⟩
  | nominal x => exact Machine.read_rounded h rfl
  | stdDev x => exact Machine.read_rounded h rfl
  | s x => exact Machine.read_rounded h rfl
  | derivatives x => exact Machine.read_rounded h rfl
  | errorComponents x => exact Machine.read_rounded h rfl
  | stdScore x value => exact Machine.read_rounded h rfl
  | covarianceMatrix xs => exact Machine.read_rounded h rfl
  | compare op x y => exact Machine.read_rounded h rfl
  | toBool x => exact Machine.read_rounded h rfl
  | tag x => exact Machine.read_rounded h rfl

theorem RRel.init : RRel (fun _ => Grad.zero) (Machine.init : Machine F)
    { vars := [], fns := opDefs, env := [] } := by
  have h := MShape.init (F := F)
  refine ⟨⟨h.shape, h.ops, ⟨fun i lc hi => ?_, fun _ => Grad.OK.zero⟩, fun v cell hv => ?_⟩, rfl, ?_,
    rfl, h.env⟩
  · simp [Machine.init, World.init] at hi
  · simp [Machine.init, World.init] at hv
  · simp [Machine.init, World.init, mkWrapped, Function.comp_def]

/-- State after a history. -/
theorem RRel.after [Halts F] (cs : List (Cmd F)) (hc : ∀ c ∈ cs, c.isCopy = false) :
    ∃ g, RRel g (after cs) (exactly cs) := by
  induction cs using List.reverseRecOn with
  | nil => exact ⟨_, RRel.init⟩
  | append_singleton cs c ih =>
    obtain ⟨g, h⟩ := ih (fun c' hc' => hc c' (by simp [hc']))
    obtain ⟨g', h'⟩ := Machine.step_rounded h (hc c (by simp))
    refine ⟨g', ?_⟩
    rw [after_snoc']
    have e : exactly (cs ++ [c]) = (exactly cs).step c := by simp [exactly]
    rw [e]
    exact h'

end Unc
