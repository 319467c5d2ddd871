import Verif.Lemmas.Copy
import Verif.Spec.Machine

/-
Every command of a history behaves as in the specification.
-/

namespace Unc

set_option linter.unusedSectionVars false
set_option autoImplicit false

variable {F : Type} [PyMath F]

/-- A quantity that depends on something. -/
def Lin.NonEmpty (l : Lin F) : Prop := ∃ v x, l v = some x

theorem truthy_of_nonempty {g : NodeId → Lin F} {i : NodeId} {lc : LC F} (h : CellOK g i lc)
    (hn : (g i).NonEmpty) : lc.truthy = true := by
  obtain ⟨v, x, hx⟩ := hn
  cases lc with
  | dict d =>
    cases d with
    | nil => rw [← h.2] at hx; simp [Lin.ofDict] at hx
    | cons _ _ => rfl
  | terms ts =>
    cases ts with
    | nil => rw [← h.2] at hx; simp [linItems, Lin.zero] at hx
    | cons _ _ => rfl

theorem World.linTruthy_spec {w : World F} {g : NodeId → Lin F} (h : Inv w g) {u : UF F}
    (hu : u.OK w) (hn : (g u.lin).NonEmpty) : w.linTruthy u = .ok true := by
  have hlt := hu.1
  have hg : w.nodes[u.lin]? = some w.nodes[u.lin] := List.getElem?_eq_getElem hlt
  simp [World.linTruthy, hg, truthy_of_nonempty (h.den _ _ hg) hn]

section exact
variable [ExactLin F]

theorem World.alloc_dict_nil {w : World F} {g : NodeId → Lin F} (h : Inv w g) :
    Evolves w g (w.alloc (.dict [])).1 (extend g w.nodes.length Lin.zero) :=
  h.alloc (.dict []) Lin.zero ⟨by simp [KeysNodup], by rw [extend_self]; rfl⟩
    (by intro v x hx; cases hx)

theorem World.modf_spec {w : World F} {g : NodeId → Lin F} (h : Inv w g) {x : Val F}
    (hx : x.OK w) (hn : ∀ u, x = .unc u → (g u.lin).NonEmpty) :
    ∃ w' g' r, w.modf x = (w', r) ∧ Evolves w g w' g' ∧
      r.map (fun p => (p.1.abs g', p.2)) = specModf (x.abs g) ∧ ∀ p, r = .ok p → p.1.OK w' := by
  cases x with
  | unc u =>
    refine ⟨w, g, .ok (.unc { nom := (PyMath.modf u.nom).1, lin := u.lin, var := none },
      (PyMath.modf u.nom).2), ?_, Evolves.refl h, rfl, ?_⟩
    · simp only [World.modf, World.toAffine, World.linTruthy_spec h hx (hn u rfl)]
    · intro p hp
      cases hp
      exact ⟨hx.1, fun v hv => by cases hv⟩
  | plain v =>
    cases v with
    | flt z =>
      have e : (w.alloc (LC.dict [])).1.linTruthy
          ({ nom := z, lin := (w.alloc (LC.dict [])).2, var := none } : UF F) = .ok false := by
        simp [World.linTruthy, World.alloc, LC.truthy]
      refine ⟨_, _, .ok (.plain (.flt (PyMath.modf z).1), (PyMath.modf z).2), ?_,
        World.alloc_dict_nil h, rfl, ?_⟩
      · simp only [World.modf, World.toAffine, e]
      · intro p hp; cases hp; trivial
    | cplx => exact ⟨w, g, _, rfl, Evolves.refl h, rfl, fun p hp => by cases hp⟩
    | other _ => exact ⟨w, g, _, rfl, Evolves.refl h, rfl, fun p hp => by cases hp⟩
    | notImpl => exact ⟨w, g, _, rfl, Evolves.refl h, rfl, fun p hp => by cases hp⟩

theorem World.ldexp_spec {w : World F} {g : NodeId → Lin F} (h : Inv w g) {x : Val F} (i : Int)
    (hx : x.OK w) (hn : ∀ u, x = .unc u → (g u.lin).NonEmpty) :
    ∃ w' g' r, w.ldexp x i = (w', r) ∧ Evolves w g w' g' ∧
      ResOK w' g' r (specLdexp i (x.abs g)) := by
  cases x with
  | unc u =>
    have ht := World.linTruthy_spec h hx (hn u rfl)
    cases hl : PyMath.ldexp u.nom i with
    | error e =>
      refine ⟨w, g, .error e, ?_, Evolves.refl h, ?_, fun v hv => by cases hv⟩
      · simp only [World.ldexp, World.toAffine, ht, hl]
      · simp only [specLdexp, Val.abs, UF.abs, hl]; rfl
    | ok r =>
      have hb : ItemsBelow w.nodes.length [Item.pair (PyMath.pow2 i : F) u.lin] := by
        intro t ht; simp at ht; exact ⟨_, _, ht, hx.1⟩
      have hal := h.alloc (.terms [.pair (PyMath.pow2 i) u.lin])
        (linItems g [.pair (PyMath.pow2 i) u.lin])
        ⟨hb, by rw [extend_self]; exact linItems_congr hb (fun j hj => extend_lt hj)⟩
        (linItems_keys h _ hb)
      refine ⟨_, _, .ok (.unc { nom := r, lin := w.nodes.length, var := none }), ?_, hal, ?_, ?_⟩
      · simp only [World.ldexp, World.toAffine, ht, hl]; rfl
      · simp only [specLdexp, Val.abs, UF.abs, hl, Except.map, extend_self]; rfl
      · intro v hv; cases hv
        exact ⟨by simp [World.alloc], fun v hv => by cases hv⟩
  | plain v =>
    cases v with
    | flt z =>
      have e : (w.alloc (LC.dict [])).1.linTruthy
          ({ nom := z, lin := (w.alloc (LC.dict [])).2, var := none } : UF F) = .ok false := by
        simp [World.linTruthy, World.alloc, LC.truthy]
      cases hl : PyMath.ldexp z i with
      | error e' =>
        refine ⟨_, _, .error e', ?_, World.alloc_dict_nil h, ?_, fun v hv => by cases hv⟩
        · simp only [World.ldexp, World.toAffine, e, hl]
        · simp only [specLdexp, Val.abs, hl]; rfl
      | ok r =>
        refine ⟨_, _, .ok (.plain (.flt r)), ?_, World.alloc_dict_nil h, ?_, ?_⟩
        · simp only [World.ldexp, World.toAffine, e, hl]
        · simp only [specLdexp, Val.abs, hl]; rfl
        · intro v hv; cases hv; trivial
    | cplx => exact ⟨w, g, _, rfl, Evolves.refl h, rfl, fun p hp => by cases hp⟩
    | other _ => exact ⟨w, g, _, rfl, Evolves.refl h, rfl, fun p hp => by cases hp⟩
    | notImpl => exact ⟨w, g, _, rfl, Evolves.refl h, rfl, fun p hp => by cases hp⟩

theorem World.compare_spec {w : World F} {g : NodeId → Lin F} (h : Inv w g) (op : CmpOp)
    {x y : Val F} (hx : x.OK w) (hy : y.OK w) :
    ∃ w' g', Evolves w g w' g' ∧
      w.compare op x y = (w', specCompare w.svars op (x.abs g) (y.abs g)) := by
  have run : ∀ (op : CmpOp) (a : UF F) (b : Val F), a.OK w → b.OK w →
      ∃ w' g', Evolves w g w' g' ∧
      w.cmpRun op a b = (w', specCmpRun w.svars op (a.abs g) (b.abs g)) := by
    intro op a b ha hb
    obtain ⟨w1, g1, a1, a2⟩ := World.cmp_spec h op ha hb
    refine ⟨w1, g1, a1, ?_⟩
    simp only [World.cmpRun, specCmpRun, a2]
    cases specCmpVal w.svars op (a.abs g) (b.abs g) with
    | error e => rfl
    | ok o => cases o <;> rfl
  cases x with
  | unc a =>
    cases y with
    | unc b =>
      by_cases hab : (a.var.isNone && b.var.isSome) = true
      · obtain ⟨w1, g1, a1, a2⟩ := run op.swap b (.unc a) hy hx
        refine ⟨w1, g1, a1, ?_⟩
        simp only [World.compare, hab, if_true, a2]
        have : ((a.abs g).var.isNone && (b.abs g).var.isSome) = true := hab
        simp only [specCompare, Val.abs_unc, this, if_true]
      · obtain ⟨w1, g1, a1, a2⟩ := run op a (.unc b) hx hy
        refine ⟨w1, g1, a1, ?_⟩
        simp only [Bool.not_eq_true] at hab
        simp only [World.compare, hab, Bool.false_eq_true, if_false, a2]
        have : ((a.abs g).var.isNone && (b.abs g).var.isSome) = false := hab
        simp only [specCompare, Val.abs_unc, this, Bool.false_eq_true, if_false]
    | plain v =>
      obtain ⟨w1, g1, a1, a2⟩ := run op a (.plain v) hx hy
      exact ⟨w1, g1, a1, a2⟩
  | plain v =>
    cases y with
    | unc b =>
      obtain ⟨w1, g1, a1, a2⟩ := run op.swap b (.plain v) hy hx
      exact ⟨w1, g1, a1, a2⟩
    | plain v' => exact ⟨w, g, Evolves.refl h, rfl⟩

/-! ### Quantities without variables -/

theorem World.isConst_spec {w : World F} {g : NodeId → Lin F} (h : Inv w g) {x : Val F}
    (hx : x.OK w) : w.isConst x = (x.abs g).isConst w.vars.length := by
  cases x with
  | plain _ => rfl
  | unc u =>
    obtain ⟨w', d, a1, a2, a3, a4⟩ := World.derivatives_spec h hx
    have hd : ∀ v, d.lookup v = g u.lin v := fun v => by rw [← a4]; rfl
    simp only [World.isConst, a1, Val.abs_unc, SVal.isConst, UF.abs]
    cases d with
    | nil =>
      have : (List.range w.vars.length).any (fun v => (g u.lin v).isSome) = false := by
        rw [List.any_eq_false]
        intro v _
        rw [← hd v]
        simp
      simp [this]
    | cons p d =>
      have hv : g u.lin p.1 = some p.2 := by rw [← hd]; obtain ⟨a, b⟩ := p; simp [List.lookup]
      have hlt := h.keys u.lin hx.1 p.1 p.2 hv
      have : (List.range w.vars.length).any (fun v => (g u.lin v).isSome) = true :=
        List.any_eq_true.mpr ⟨p.1, List.mem_range.mpr hlt, by simp [hv]⟩
      simp [this]

theorem nonempty_of_isConst {g : NodeId → Lin F} {n : Nat} {u : UF F}
    (h : (Val.abs g (.unc u)).isConst n = false) : (g u.lin).NonEmpty := by
  simp only [Val.abs_unc, SVal.isConst, UF.abs, Bool.not_eq_false', List.any_eq_true] at h
  obtain ⟨v, -, hv⟩ := h
  obtain ⟨x, hx⟩ := Option.isSome_iff_exists.mp hv
  exact ⟨v, x, hx⟩

/-! ### Simulation -/

/-- Relation between the states of the model and of the specification. -/
structure Rel (g : NodeId → Lin F) (m : Machine F) (s : SState F) : Prop where
  inv : Inv m.w g
  vars : s.vars = m.w.svars
  fns : s.fns = m.w.wraps.map Wrapped.df
  env : s.env = m.env.map (Option.map (Val.abs g))
  ok : ∀ v, some v ∈ m.env → v.OK m.w

theorem Rel.evolve' {g : NodeId → Lin F} {m : Machine F} {s : SState F} (h : Rel g m s)
    {w' : World F} {g' : NodeId → Lin F} (he : Evolves' m.w g w' g') :
    Rel g' ⟨w', m.env⟩ ⟨w'.svars, w'.wraps.map Wrapped.df, s.env⟩ := by
  refine ⟨he.inv, rfl, rfl, ?_, fun v hv => Val.OK.evolves' he (h.ok v hv)⟩
  show s.env = m.env.map _
  rw [h.env]
  apply List.map_congr_left
  intro o ho
  cases o with
  | none => rfl
  | some v => simp only [Option.map]; rw [Val.abs_evolves' he (h.ok v ho)]

theorem Rel.evolve {g : NodeId → Lin F} {m : Machine F} {s : SState F} (h : Rel g m s)
    {w' : World F} {g' : NodeId → Lin F} (he : Evolves m.w g w' g') : Rel g' ⟨w', m.env⟩ s := by
  have := h.evolve' he.weaken
  rw [svars_evolves he, he.fns, ← h.vars, ← h.fns] at this
  exact this

theorem Rel.push {g : NodeId → Lin F} {m : Machine F} {s : SState F} (h : Rel g m s)
    (l : List (Option (Val F))) (hl : ∀ v, some v ∈ l → v.OK m.w) :
    Rel g ⟨m.w, m.env ++ l⟩ { s with env := s.env ++ l.map (Option.map (Val.abs g)) } := by
  refine ⟨h.inv, h.vars, h.fns, ?_, ?_⟩
  · simp [h.env]
  · intro v hv
    rcases List.mem_append.mp hv with hv | hv
    · exact h.ok v hv
    · exact hl v hv

theorem Rel.pushNone {g : NodeId → Lin F} {m : Machine F} {s : SState F} (h : Rel g m s)
    (n : Nat) :
    Rel g ⟨m.w, m.env ++ List.replicate n none⟩ { s with env := s.env ++ List.replicate n none } := by
  have := h.push (List.replicate n none) (by intro v hv; simp at hv)
  simpa using this

theorem Rel.eval {g : NodeId → Lin F} {m : Machine F} {s : SState F} (h : Rel g m s)
    (a : Arg F) : a.seval s.env = (a.eval m.env).map (Val.abs g) := by
  cases a with
  | const v => rfl
  | ref k =>
    simp only [Arg.seval, Arg.eval, h.env, List.getElem?_map]
    cases m.env[k]? <;> simp

theorem Rel.eval_ok {g : NodeId → Lin F} {m : Machine F} {s : SState F} (h : Rel g m s)
    {a : Arg F} {v : Val F} (ha : a.eval m.env = some v) : v.OK m.w := by
  cases a with
  | const v => cases ha; trivial
  | ref k =>
    simp only [Arg.eval] at ha
    cases hk : m.env[k]? with
    | none => simp [hk] at ha
    | some o =>
      simp [hk] at ha
      subst ha
      exact h.ok v (List.mem_of_getElem? hk)

theorem Rel.evalUnc {g : NodeId → Lin F} {m : Machine F} {s : SState F} (h : Rel g m s)
    (a : Arg F) : a.sevalUnc s.env = (a.evalUnc m.env).map (UF.abs g) := by
  simp only [Arg.sevalUnc, Arg.evalUnc, h.eval a]
  cases a.eval m.env with
  | none => rfl
  | some v => cases v <;> rfl

theorem Rel.evalUnc_ok {g : NodeId → Lin F} {m : Machine F} {s : SState F} (h : Rel g m s)
    {a : Arg F} {u : UF F} (ha : a.evalUnc m.env = some u) : u.OK m.w := by
  simp only [Arg.evalUnc] at ha
  split at ha
  · rename_i u' hu'
    cases ha
    exact h.eval_ok hu'
  · cases ha

theorem Rel.evalItems {g : NodeId → Lin F} {m : Machine F} {s : SState F} (h : Rel g m s)
    (items : List (Arg F × F)) :
    evalArgs (Arg.sevalItem s.env) items = evalArgs (Arg.evalItem m.env) items := by
  induction items with
  | nil => rfl
  | cons p items ih =>
    have : Arg.sevalItem s.env p = Arg.evalItem m.env p := by
      simp only [Arg.sevalItem, Arg.evalItem, h.evalUnc]
      cases p.1.evalUnc m.env <;> rfl
    simp only [evalArgs, this, ih]

theorem evalArgs_map {α β γ : Type} (ev : α → Option β) (sv : α → Option γ) (f : β → γ)
    (h : ∀ a, sv a = (ev a).map f) (l : List α) :
    evalArgs sv l = (evalArgs ev l).map (List.map f) := by
  induction l with
  | nil => rfl
  | cons a l ih =>
    simp only [evalArgs, h a, ih]
    cases ev a with
    | none => rfl
    | some v => cases evalArgs ev l <;> rfl

theorem evalArgs_mem {α β : Type} {ev : α → Option β} {l : List α} {vs : List β}
    (h : evalArgs ev l = some vs) : ∀ v ∈ vs, ∃ a ∈ l, ev a = some v := by
  induction l generalizing vs with
  | nil => cases h; simp
  | cons a l ih =>
    simp only [evalArgs] at h
    split at h
    · cases h
    · split at h
      · cases h
      · rename_i v hv _ vs' hvs'
        cases h
        intro x hx
        rcases List.mem_cons.mp hx with rfl | hx
        · exact ⟨a, by simp, hv⟩
        · obtain ⟨b, hb1, hb2⟩ := ih hvs' x hx
          exact ⟨b, by simp [hb1], hb2⟩

theorem evalArgs_length {α β : Type} {ev : α → Option β} {l : List α} {vs : List β}
    (h : evalArgs ev l = some vs) : vs.length = l.length := by
  induction l generalizing vs with
  | nil => cases h; simp
  | cons a l ih =>
    simp only [evalArgs] at h
    split at h
    · cases h
    · split at h
      · cases h
      · rename_i vs' hvs'
        cases h
        simp [ih hvs']

theorem Rel.evalKw {g : NodeId → Lin F} {m : Machine F} {s : SState F} (h : Rel g m s)
    (p : String × Arg F) :
    Arg.sevalKw s.env p = (Arg.evalKw m.env p).map (fun p => (p.1, p.2.abs g)) := by
  simp only [Arg.sevalKw, Arg.evalKw, h.eval]
  cases p.2.eval m.env <;> rfl

theorem Rel.evalKw_ok {g : NodeId → Lin F} {m : Machine F} {s : SState F} (h : Rel g m s)
    {p : String × Arg F} {q : String × Val F} (hp : Arg.evalKw m.env p = some q) :
    q.2.OK m.w := by
  simp only [Arg.evalKw] at hp
  cases hv : p.2.eval m.env with
  | none => simp [hv] at hp
  | some v =>
    simp [hv] at hp
    subst hp
    exact h.eval_ok hv

/-- Binding the result of an operation. -/
theorem Rel.bind {g g' : NodeId → Lin F} {m : Machine F} {s : SState F} (h : Rel g m s)
    {w' : World F} (he : Evolves m.w g w' g') {r : PyRes (Val F)} {sr : PyRes (SVal F)}
    (hr : ResOK w' g' r sr) :
    ∃ g'' s'', s.bind sr = (s'', (Machine.bind m.env w' r).2) ∧
      Rel g'' (Machine.bind m.env w' r).1 s'' := by
  have h1 := h.evolve he
  obtain ⟨rfl, hok⟩ := hr
  cases r with
  | error e => exact ⟨g', _, rfl, h1.pushNone 1⟩
  | ok v =>
    have h2 := h1.push [some v] (by
      intro x hx; simp at hx; subst hx; exact hok _ rfl)
    cases v with
    | unc u => exact ⟨g', _, rfl, h2⟩
    | plain p =>
      cases p with
      | flt x => exact ⟨g', _, rfl, h2⟩
      | cplx => exact ⟨g', _, rfl, h2⟩
      | other _ => exact ⟨g', _, rfl, h2⟩
      | notImpl => exact ⟨g', _, rfl, h1.pushNone 1⟩

theorem Rel.invalid {g : NodeId → Lin F} {m : Machine F} {s : SState F} (h : Rel g m s) (n : Nat) :
    ∃ g' s', (s', (m.invalid n).2) = s.invalid n ∧ Rel g' (m.invalid n).1 s' :=
  ⟨g, _, rfl, h.pushNone n⟩

/-- Reading commands. -/
theorem Rel.read {g : NodeId → Lin F} {m : Machine F} {s : SState F} (h : Rel g m s) (x : Arg F)
    (f : World F → UF F → World F × PyRes (Out F)) (sf : SQ F → Out F)
    (hf : ∀ u, u.OK m.w → ∃ w' g' r, f m.w u = (w', r) ∧ Evolves m.w g w' g' ∧
      sf (u.abs g) = PyRes.out id r) :
    ∃ g' s', (s', (m.read x f).2) = s.read x sf ∧ Rel g' (m.read x f).1 s' := by
  unfold Machine.read SState.read
  rw [h.evalUnc x]
  cases hx : x.evalUnc m.env with
  | none => exact h.invalid 0
  | some u =>
    have hok := h.evalUnc_ok hx
    obtain ⟨w', g', r, a1, a2, a3⟩ := hf u hok
    refine ⟨g', s, ?_, ?_⟩
    · cases r <;> simp [a1, a3, PyRes.out]
    · cases r <;> (simp only [a1]; exact h.evolve a2)

theorem SpecCopied.ofCopy {g : NodeId → Lin F} {m : Machine F} {s : SState F} (h : Rel g m s)
    {us : List (UF F)} {w' : World F} {g' : NodeId → Lin F} {us' : List (UF F)}
    {ρ : List (VarId × VarId)} 
    (he : Evolves' m.w g w' g') (hok : ∀ u ∈ us', u.OK w')
    (hw : w'.wraps = m.w.wraps)
    (hc : SpecCopy m.w.svars w'.svars ρ (us.map (UF.abs g)) (us'.map (UF.abs g'))) :
    ∃ s', SpecCopied s s' (us.map (UF.abs g)) ∧
      Rel g' ⟨w', m.env ++ us'.map (fun u => some (.unc u))⟩ s' := by
  have h1 := h.evolve' he
  have h2 := h1.push (us'.map (fun u => some (.unc u))) (by
    intro v hv
    simp at hv
    obtain ⟨u, hu, rfl⟩ := hv
    exact hok u hu)
  refine ⟨_, ⟨ρ, us'.map (UF.abs g'), ?_, ?_, ?_⟩, h2⟩
  · rw [h.vars]; exact hc
  · show w'.wraps.map Wrapped.df = s.fns
    rw [hw, h.fns]
  · simp only [List.map_map]
    rfl

/-- Every command behaves as specified. -/
theorem Machine.step_refines {g : NodeId → Lin F} {m : Machine F} {s : SState F} (h : Rel g m s)
    (c : Cmd F) : ∃ g' s', SpecStep s c s' (m.step c).2 ∧ Rel g' (m.step c).1 s' := by
  cases c with
  | ufloat n std tag =>
    obtain ⟨w', g', r, a1, a2, a3, a4⟩ := World.ufloat_spec h.inv n std tag
    simp only [SpecStep, Machine.step, SState.step, a1]
    cases hb : specBadStd std with
    | true =>
      simp only [hb, if_true] at a4 ⊢
      obtain ⟨rfl, rfl, rfl⟩ := a4
      exact ⟨_, _, rfl, h.pushNone 1⟩
    | false =>
      simp only [hb, Bool.false_eq_true, if_false] at a4 ⊢
      obtain ⟨b1, u, rfl, b2, b3⟩ := a4
      have h1 := h.evolve' a2
      have h2 := h1.push [some (.unc u)] (by
        intro x hx; simp at hx; subst hx; exact b2)
      refine ⟨g', _, rfl, ?_⟩
      have hlen : s.vars.length = m.w.vars.length := by rw [h.vars]; simp [World.svars]
      simp only [List.map_cons, List.map_nil, Option.map, Val.abs, b3, b1, a3, ← h.vars, ← h.fns,
        ← hlen] at h2
      exact h2
  | affine n items =>
    simp only [SpecStep, Machine.step, SState.step, h.evalItems items]
    cases hx : evalArgs (Arg.evalItem m.env) items with
    | none => exact h.invalid 1
    | some d =>
      simp only
      by_cases hn : (d.map Prod.fst).Nodup
      · simp only [hn, if_true]
        have hk : ∀ v x, Lin.ofDict d v = some x → v < m.w.vars.length := by
          intro v x hv
          have hm : (v, x) ∈ d := mem_of_lookup hv
          obtain ⟨p, -, hp⟩ := evalArgs_mem hx _ hm
          simp only [Arg.evalItem] at hp
          cases hu : p.1.evalUnc m.env with
          | none => simp [hu] at hp
          | some u =>
            simp only [hu, Option.bind_some, Option.map_eq_some_iff] at hp
            obtain ⟨v', e1, e2⟩ := hp
            cases e2
            exact ((h.evalUnc_ok hu).var_grad h.inv e1).2
        have he := h.inv.alloc (.dict d) (Lin.ofDict d) ⟨hn, by rw [extend_self]⟩ hk
        have h1 := h.evolve he
        have h2 := h1.push [some (.unc { nom := n, lin := m.w.nodes.length, var := none })] (by
          intro x hx; simp at hx; subst hx
          exact ⟨by simp [World.alloc], fun v hv => by cases hv⟩)
        refine ⟨extend g m.w.nodes.length (Lin.ofDict d), _, rfl, ?_⟩
        have e : (m.w.alloc (.dict d)).2 = m.w.nodes.length := rfl
        rw [e]
        simpa [Val.abs, UF.abs, extend_self] using h2
      · simp only [hn, if_false]
        exact h.invalid 1
  | wrap df =>
    obtain ⟨a1, a2, a3, a4⟩ := World.wrap_spec h.inv df
    refine ⟨g, _, rfl, ?_⟩
    have h1 := h.evolve' a1
    have e : (m.w.wrap df).1.svars = s.vars := by
      rw [h.vars]; simp [World.svars, a4]
    rw [a3, e, ← h.fns] at h1
    exact h1
  | call f args kwargs =>
    simp only [SpecStep, Machine.step, SState.step]
    have hfns : s.fns[f]? = (m.w.wraps[f]?).map Wrapped.df := by rw [h.fns]; simp
    by_cases hf : f < m.w.wraps.length
    · have hg : m.w.wraps[f]? = some m.w.wraps[f] := List.getElem?_eq_getElem hf
      rw [hfns, hg]
      simp only [hf, if_true, Option.map]
      rw [evalArgs_map (Arg.eval m.env) (Arg.seval s.env) (Val.abs g) h.eval args,
        evalArgs_map (Arg.evalKw m.env) (Arg.sevalKw s.env) (fun p => (p.1, p.2.abs g)) h.evalKw
          kwargs]
      cases ha : evalArgs (Arg.eval m.env) args with
      | none => exact h.invalid 1
      | some a =>
        cases hk : evalArgs (Arg.evalKw m.env) kwargs with
        | none => exact h.invalid 1
        | some k =>
          have hao : ∀ x ∈ a, x.OK m.w := by
            intro x hx
            obtain ⟨_, _, e⟩ := evalArgs_mem ha x hx
            exact h.eval_ok e
          have hko : ∀ x ∈ k, x.2.OK m.w := by
            intro x hx
            obtain ⟨_, _, e⟩ := evalArgs_mem hk x hx
            exact h.evalKw_ok e
          obtain ⟨w', g', r, a1, a2, a3⟩ := World.call_spec h.inv f _ hg a k
            hao hko
          simp only [a1, Option.map]
          obtain ⟨g'', s'', b1, b2⟩ := h.bind a2 a3
          exact ⟨g'', s'', b1.symm, b2⟩
    · have hg : m.w.wraps[f]? = none := by simp; omega
      rw [hfns, hg]
      simp only [hf, if_false, Option.map]
      exact h.invalid 1
  | unop op x =>
    simp only [SpecStep, Machine.step, SState.step, h.evalUnc x]
    cases hx : x.evalUnc m.env with
    | none => exact h.invalid 1
    | some u =>
      have hok := h.evalUnc_ok hx
      obtain ⟨w', g', r, a1, a2, a3⟩ := World.unop_spec h.inv op hok
      simp only [a1, Option.map]
      obtain ⟨g'', s'', b1, b2⟩ := h.bind a2 a3
      exact ⟨g'', s'', b1.symm, b2⟩
  | binop op x y =>
    simp only [SpecStep, Machine.step, SState.step, h.eval x, h.eval y]
    cases hx : x.eval m.env with
    | none => exact h.invalid 1
    | some a =>
      cases hy : y.eval m.env with
      | none => exact h.invalid 1
      | some b =>
        have ha1 := h.eval_ok hx
        have hb1 := h.eval_ok hy
        simp only [Option.map, Val.abs_isUnc]
        by_cases hu : (a.isUnc || b.isUnc) = true
        · simp only [hu, if_true]
          obtain ⟨w', g', r, a1, a2, a3⟩ := World.binop_spec h.inv op ha1 hb1
          simp only [a1]
          obtain ⟨g'', s'', b1, b2⟩ := h.bind a2 a3
          exact ⟨g'', s'', b1.symm, b2⟩
        · simp only [hu]
          exact h.invalid 1
  | modf x =>
    simp only [SpecStep, Machine.step, SState.step, h.eval x]
    cases hx : x.eval m.env with
    | none => exact h.invalid 2
    | some v =>
      have hv1 := h.eval_ok hx
      have hlen : s.vars.length = m.w.vars.length := by rw [h.vars]; simp [World.svars]
      simp only [Option.map, World.isConst_spec h.inv hv1, hlen]
      cases hcst : (v.abs g).isConst m.w.vars.length with
      | true => exact h.invalid 2
      | false =>
        obtain ⟨w', g', r, a1, a2, a3, a4⟩ := World.modf_spec h.inv hv1 (by
          intro u hu; subst hu; exact nonempty_of_isConst hcst)
        simp only [a1, Bool.false_eq_true, if_false, ← a3]
        have h1 := h.evolve a2
        cases r with
        | error e => exact ⟨g', _, rfl, h1.pushNone 2⟩
        | ok p =>
          obtain ⟨p1, p2⟩ := p
          have h2 := h1.push [some p1, some (.plain (.flt p2))] (by
            intro x hx
            simp at hx
            rcases hx with rfl | rfl
            · exact a4 _ rfl
            · trivial)
          exact ⟨g', _, rfl, h2⟩
  | ldexp x i =>
    simp only [SpecStep, Machine.step, SState.step, h.eval x]
    cases hx : x.eval m.env with
    | none => exact h.invalid 1
    | some v =>
      have hv1 := h.eval_ok hx
      have hlen : s.vars.length = m.w.vars.length := by rw [h.vars]; simp [World.svars]
      simp only [Option.map, World.isConst_spec h.inv hv1, hlen]
      cases hcst : (v.abs g).isConst m.w.vars.length with
      | true => exact h.invalid 1
      | false =>
        obtain ⟨w', g', r, a1, a2, a3⟩ := World.ldexp_spec h.inv i hv1 (by
          intro u hu; subst hu; exact nonempty_of_isConst hcst)
        simp only [a1, Bool.false_eq_true, if_false]
        obtain ⟨g'', s'', b1, b2⟩ := h.bind a2 a3
        exact ⟨g'', s'', b1.symm, b2⟩
  | lcst f args kwargs =>
    simp only [SpecStep, Machine.step, SState.step]
    rw [evalArgs_map (Arg.eval m.env) (Arg.seval s.env) (Val.abs g) h.eval args,
      evalArgs_map (Arg.evalKw m.env) (Arg.sevalKw s.env) (fun p => (p.1, p.2.abs g)) h.evalKw
        kwargs]
    cases ha : evalArgs (Arg.eval m.env) args with
    | none => exact h.invalid 1
    | some a =>
      cases hk : evalArgs (Arg.evalKw m.env) kwargs with
      | none => exact h.invalid 1
      | some k =>
        simp only [Option.map]
        have e1 : (a.map (Val.abs g)).map SVal.nominal = a.map Val.nominal := by
          rw [List.map_map]; exact List.map_congr_left fun x _ => by cases x <;> rfl
        have e2 : (k.map fun p => (p.1, p.2.abs g)).map (fun p => (p.1, p.2.nominal)) =
            k.map (fun p => (p.1, p.2.nominal)) := by
          rw [List.map_map]; exact List.map_congr_left fun x _ => by
            obtain ⟨n, x⟩ := x; cases x <;> rfl
        obtain ⟨g'', s'', b1, b2⟩ := h.bind (Evolves.refl h.inv) (r := wrapLocallyCst f a k)
          (sr := specLcst f (a.map (Val.abs g)) (k.map fun p => (p.1, p.2.abs g))) (by
            simp only [wrapLocallyCst, specLcst, e1, e2]
            cases f (a.map Val.nominal) (k.map fun p => (p.1, p.2.nominal)) with
            | error e => exact ⟨rfl, fun v hv => by cases hv⟩
            | ok v => exact ⟨rfl, fun v hv => by cases hv; trivial⟩)
        exact ⟨g'', s'', b1.symm, b2⟩
  | copy x =>
    simp only [SpecStep, Machine.step, h.evalUnc x]
    cases hx : x.evalUnc m.env with
    | none => exact h.invalid 1
    | some u =>
      have hok := h.evalUnc_ok hx
      cases huv : u.var with
      | none =>
        have h2 := h.push [some (.unc u)] (by
          intro x hx; simp at hx; subst hx; exact hok)
        simp only [World.copy, huv, Option.map, UF.abs]
        exact ⟨g, _, ⟨trivial, rfl⟩, by simpa [Val.abs, UF.abs, huv] using h2⟩
      | some v =>
        obtain ⟨w', g', u', ρ, a1, a2, a3, a4, a5⟩ := World.copyVar_copies h.inv hok huv
        obtain ⟨s', b1, b2⟩ := SpecCopied.ofCopy h (us := [u]) (us' := [u']) a2
          (by intro x hx; simp at hx; subst hx; exact a3) a4 a5
        refine ⟨g', s', ?_, ?_⟩
        · simp only [World.copy, huv, a1, Option.map]
          simp only [UF.abs, huv]
          exact ⟨trivial, by simpa [UF.abs, huv] using b1⟩
        · simp only [World.copy, huv, a1]
          exact b2
  | deepcopy x =>
    simp only [SpecStep, Machine.step, h.evalUnc x]
    cases hx : x.evalUnc m.env with
    | none => exact h.invalid 1
    | some u =>
      have hok := h.evalUnc_ok hx
      obtain ⟨w', g', u', ρ, a1, a2, a3, a4, a5⟩ := World.deepcopy_copies h.inv hok
      obtain ⟨s', b1, b2⟩ := SpecCopied.ofCopy h (us := [u]) (us' := [u']) a2
        (by intro x hx; simp at hx; subst hx; exact a3) a4 a5
      refine ⟨g', s', ?_, ?_⟩
      · simp only [a1, Option.map]
        exact ⟨trivial, b1⟩
      · simp only [a1]
        exact b2
  | pickle xs =>
    simp only [SpecStep, Machine.step]
    rw [evalArgs_map (Arg.evalUnc m.env) (Arg.sevalUnc s.env) (UF.abs g) h.evalUnc xs]
    cases hx : evalArgs (Arg.evalUnc m.env) xs with
    | none => exact h.invalid xs.length
    | some us =>
      have hok : ∀ u ∈ us, u.OK m.w := by
        intro u hu
        obtain ⟨_, _, e⟩ := evalArgs_mem hx u hu
        exact h.evalUnc_ok e
      obtain ⟨w', g', us', ρ, a1, a2, a3, a4, a5⟩ := World.pickle_copies h.inv us hok
      obtain ⟨s', b1, b2⟩ := SpecCopied.ofCopy h a2 a3 a4 a5
      refine ⟨g', s', ?_, ?_⟩
      · simp only [a1, Option.map]
        exact ⟨trivial, b1⟩
      · simp only [a1]
        exact b2
  | «variable» x v =>
    simp only [SpecStep, Machine.step, SState.step, h.evalUnc x]
    cases hx : x.evalUnc m.env with
    | none => exact h.invalid 1
    | some u =>
      have hok := h.evalUnc_ok hx
      obtain ⟨w', d, a1, a2, a3, a4⟩ := World.derivatives_spec h.inv hok
      have h1 := h.evolve a2
      have hlook : d.lookup v = g u.lin v := by rw [← a4]; rfl
      simp only [World.variable, a1, hlook, Option.map, UF.abs]
      cases hgv : g u.lin v with
      | none => exact ⟨g, _, rfl, h1.pushNone 1⟩
      | some y =>
        have hv := h.inv.keys u.lin hok.1 v y hgv
        have hv' : v < w'.vars.length := by rw [a2.vars]; exact hv
        have hc : m.w.vars[v]? = some m.w.vars[v] := List.getElem?_eq_getElem hv
        have hc' : w'.vars[v]? = some m.w.vars[v] := by rw [a2.vars, hc]
        have hs : s.vars[v]? = some m.w.vars[v].abs := by simp [h.vars, World.svars, hc]
        simp only [hc', hs]
        obtain ⟨b1, b2⟩ := a2.inv.vars v _ hc'
        have h2 := h1.push [some (.unc ⟨m.w.vars[v].nom, m.w.vars[v].lin, some v⟩)] (by
          intro x hx; simp at hx; subst hx
          refine ⟨b1, fun x hx => ?_⟩
          cases hx; exact ⟨_, hc', rfl, rfl⟩)
        refine ⟨g, _, rfl, ?_⟩
        simpa [Val.abs, UF.abs, b2, VarCell.abs] using h2
  | setStd x std =>
    simp only [SpecStep, Machine.step, SState.step, Machine.read, h.evalUnc x]
    cases hx : x.evalUnc m.env with
    | none => exact h.invalid 0
    | some u =>
      have hok := h.evalUnc_ok hx
      simp only [Option.map, UF.abs, World.assignStd]
      cases huv : u.var with
      | none => exact ⟨g, s, rfl, h⟩
      | some v =>
        obtain ⟨-, hv⟩ := hok.var_grad h.inv huv
        obtain ⟨w', r, a1, a2, a3, a4⟩ := World.setStd_spec h.inv v hv std
        simp only [a1, mapRes]
        cases hb : specBadStd std with
        | true =>
          simp only [hb, if_true] at a4 ⊢
          obtain ⟨rfl, rfl⟩ := a4
          exact ⟨g, s, rfl, h⟩
        | false =>
          simp only [hb, Bool.false_eq_true, if_false] at a4 ⊢
          obtain ⟨b1, rfl⟩ := a4
          have h1 := h.evolve' a2
          rw [b1, a3, ← h.vars, ← h.fns] at h1
          exact ⟨g, _, rfl, h1⟩
  | nominal x =>
    simp only [SpecStep, Machine.step, SState.step, h.eval x]
    cases hx : x.eval m.env with
    | none => exact h.invalid 0
    | some v => exact ⟨g, s, by simp [Val.abs_nominal], h⟩
  | stdDev x =>
    simp only [SpecStep, Machine.step, SState.step, h.eval x]
    cases hx : x.eval m.env with
    | none => exact h.invalid 0
    | some v =>
      have hv1 := h.eval_ok hx
      cases v with
      | plain _ => exact ⟨g, s, rfl, h⟩
      | unc u =>
        obtain ⟨w', a1, a2⟩ := World.stdDev_spec h.inv hv1
        simp only [World.stdDevOf, a1, Option.map, Val.abs_unc]
        rw [← h.vars]
        cases specStdDev s.vars (u.abs g) with
        | error e => exact ⟨g, s, rfl, h.evolve a2⟩
        | ok r => exact ⟨g, s, rfl, h.evolve a2⟩
  | s x =>
    refine h.read x _ _ ?_
    intro u hu
    obtain ⟨w', a1, a2⟩ := World.affStdDev_spec h.inv hu
    refine ⟨w', g, _, by rw [a1]; rfl, a2, ?_⟩
    rw [h.vars]
    show PyRes.out _ (specStd _ (g u.lin)) = _
    cases specStd m.w.svars (g u.lin) <;> rfl
  | derivatives x =>
    refine h.read x _ _ ?_
    intro u hu
    obtain ⟨w', d, a1, a2, a3, a4⟩ := World.derivatives_spec h.inv hu
    refine ⟨w', g, _, by rw [a1]; rfl, a2, ?_⟩
    show Out.dict (g u.lin) = _
    rw [← a4]; rfl
  | errorComponents x =>
    refine h.read x _ _ ?_
    intro u hu
    obtain ⟨w', d, a1, a2, a3, a4, -⟩ := World.errorComponents_spec h.inv hu
    refine ⟨w', g, _, by rw [a1]; rfl, a2, ?_⟩
    rw [h.vars]
    show Out.dict (specErrorComponents _ (g u.lin)) = _
    rw [← a4]; rfl
  | stdScore x value =>
    refine h.read x _ _ ?_
    intro u hu
    obtain ⟨w', a1, a2⟩ := World.stdScore_spec h.inv hu value
    refine ⟨w', g, _, by rw [a2]; rfl, a1, ?_⟩
    rw [h.vars]
    show PyRes.out _ (specStdScore m.w.svars (u.abs g) value) = PyRes.out id
      (Except.map _ (specStdScore m.w.svars (u.abs g) value))
    cases specStdScore m.w.svars (u.abs g) value <;> rfl
  | covarianceMatrix xs =>
    simp only [SpecStep, Machine.step, SState.step]
    rw [evalArgs_map (Arg.evalUnc m.env) (Arg.sevalUnc s.env) (UF.abs g) h.evalUnc xs]
    cases hx : evalArgs (Arg.evalUnc m.env) xs with
    | none => exact h.invalid 0
    | some us =>
      have hok : ∀ u ∈ us, u.OK m.w := by
        intro u hu
        obtain ⟨_, _, e⟩ := evalArgs_mem hx u hu
        exact h.evalUnc_ok e
      obtain ⟨w', a1, a2⟩ := World.covarianceMatrix_spec h.inv us hok
      refine ⟨g, s, ?_, ?_⟩
      · simp only [a2, Option.map, List.map_map, h.vars]
        rfl
      · simp only [a2]
        exact h.evolve a1
  | compare op x y =>
    simp only [SpecStep, Machine.step, SState.step, h.eval x, h.eval y]
    cases hx : x.eval m.env with
    | none => exact h.invalid 0
    | some a =>
      cases hy : y.eval m.env with
      | none => exact h.invalid 0
      | some b =>
        have ha1 := h.eval_ok hx
        have hb1 := h.eval_ok hy
        simp only [Option.map, Val.abs_isUnc]
        by_cases hu : (a.isUnc || b.isUnc) = true
        · simp only [hu, if_true]
          obtain ⟨w', g', a1, a2⟩ := World.compare_spec h.inv op ha1 hb1
          simp only [a2]
          rw [h.vars]
          cases specCompare m.w.svars op (a.abs g) (b.abs g) with
          | error e => exact ⟨g', s, rfl, h.evolve a1⟩
          | ok r => exact ⟨g', s, rfl, h.evolve a1⟩
        · simp only [hu]
          exact h.invalid 0
  | toBool x =>
    refine h.read x _ _ ?_
    intro u hu
    obtain ⟨w', g', a1, a2⟩ := World.toBool_spec h.inv hu
    refine ⟨w', g', _, by rw [a2]; rfl, a1, ?_⟩
    rw [h.vars]
    cases specCmp m.w.svars .ne (u.abs g) (specExact 0) <;> rfl
  | tag x =>
    refine h.read x _ _ ?_
    intro u hu
    refine ⟨m.w, g, (specTag m.w.svars (u.abs g)).map Out.tag, ?_, Evolves.refl h.inv, ?_⟩
    · simp only [World.tag, specTag, mapRes, UF.abs]
      cases huv : u.var with
      | none => rfl
      | some v =>
        obtain ⟨cell, h1, -, -⟩ := hu.2 v huv
        simp [h1, World.svars, VarCell.abs]
    · rw [h.vars]
      cases specTag m.w.svars (u.abs g) <;> rfl

theorem Rel.init : Rel (fun _ => Lin.zero) (Machine.init : Machine F) SState.init := by
  refine ⟨Inv.init, rfl, ?_, rfl, ?_⟩
  · simp only [SState.init, Machine.init, World.init, List.map_map]
    conv_lhs => rw [← List.map_id (opDefs (F := F))]
    apply List.map_congr_left
    intro df _
    exact (mkWrapped_df df).symm
  · intro v hv; simp [Machine.init] at hv

theorem Machine.run_refines {g : NodeId → Lin F} {m : Machine F} {s : SState F} (h : Rel g m s)
    (cs : List (Cmd F)) : ∃ g' s', SpecRun s cs s' (m.run cs).2 ∧ Rel g' (m.run cs).1 s' := by
  induction cs generalizing g m s with
  | nil => exact ⟨g, s, .nil s, h⟩
  | cons c cs ih =>
    obtain ⟨g1, s1, a1, a2⟩ := Machine.step_refines h c
    obtain ⟨g2, s2, b1, b2⟩ := ih a2
    exact ⟨g2, s2, .cons a1 b1, b2⟩

end exact

end Unc
