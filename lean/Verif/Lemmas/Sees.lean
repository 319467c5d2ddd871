import Verif.Lemmas.Machine
import Verif.Spec.Observe

/-
Observations after a history, in terms of the specification.
-/

namespace Unc

set_option linter.unusedSectionVars false
set_option autoImplicit false

variable {F : Type} [PyMath F]

theorem Machine.run_append (m : Machine F) (cs cs' : List (Cmd F)) :
    m.run (cs ++ cs') = (((m.run cs).1.run cs').1, (m.run cs).2 ++ ((m.run cs).1.run cs').2) := by
  induction cs generalizing m with
  | nil => rfl
  | cons c cs ih => simp only [List.cons_append, Machine.run, ih]

theorem after_append (cs cs' : List (Cmd F)) : after (cs ++ cs') = ((after cs).run cs').1 := by
  simp only [after, Machine.run_append]

theorem after_snoc (cs : List (Cmd F)) (c : Cmd F) :
    after (cs ++ [c]) = ((after cs).step c).1 := by
  rw [after_append]; rfl

theorem outs_append (cs cs' : List (Cmd F)) :
    outs (cs ++ cs') = outs cs ++ ((after cs).run cs').2 := by
  simp only [outs, after, Machine.run_append]

theorem outs_snoc (cs : List (Cmd F)) (c : Cmd F) : outs (cs ++ [c]) = outs cs ++ [sees cs c] := by
  rw [outs_append]; rfl

theorem SpecRun.append {s s' s'' : SState F} {cs cs' : List (Cmd F)} {os os' : List (Out F)}
    (h : SpecRun s cs s' os) (h' : SpecRun s' cs' s'' os') :
    SpecRun s (cs ++ cs') s'' (os ++ os') := by
  induction h with
  | nil => exact h'
  | cons h1 _ ih => exact .cons h1 (ih h')

section exact
variable [ExactLin F]

/-- `s` is the state of the specification after the history `cs`. -/
def Reaches (cs : List (Cmd F)) (s : SState F) : Prop :=
  SpecRun SState.init cs s (outs cs) ∧ ∃ g, Rel g (after cs) s

theorem Reaches.exists (cs : List (Cmd F)) : ∃ s, Reaches cs s := by
  obtain ⟨g, s, h1, h2⟩ := Machine.run_refines (Rel.init (F := F)) cs
  exact ⟨s, h1, g, h2⟩

theorem Reaches.step {cs : List (Cmd F)} {s : SState F} (h : Reaches cs s) (c : Cmd F) :
    ∃ s', SpecStep s c s' (sees cs c) ∧ Reaches (cs ++ [c]) s' := by
  obtain ⟨h1, g, h2⟩ := h
  obtain ⟨g', s', a1, a2⟩ := Machine.step_refines h2 c
  refine ⟨s', a1, ?_, g', ?_⟩
  · rw [outs_snoc]; exact h1.append (.cons a1 (.nil _))
  · rw [after_snoc]; exact a2

theorem Reaches.run {cs : List (Cmd F)} {s : SState F} (h : Reaches cs s) (cs' : List (Cmd F)) :
    ∃ s', SpecRun s cs' s' ((after cs).run cs').2 ∧ Reaches (cs ++ cs') s' := by
  obtain ⟨h1, g, h2⟩ := h
  obtain ⟨g', s', a1, a2⟩ := Machine.run_refines h2 cs'
  refine ⟨s', a1, ?_, g', ?_⟩
  · rw [outs_append]; exact h1.append a1
  · rw [after_append]; exact a2

/-- Commands other than copies are deterministic in the specification. -/
def Cmd.isCopy : Cmd F → Bool
  | .copy _ | .deepcopy _ | .pickle _ => true
  | _ => false

theorem specStep_eq {s s' : SState F} {c : Cmd F} {o : Out F} (hc : c.isCopy = false)
    (h : SpecStep s c s' o) : (s', o) = s.step c := by
  cases c <;> first | exact h | cases hc

theorem Reaches.snoc {cs : List (Cmd F)} {s : SState F} (h : Reaches cs s) (c : Cmd F)
    (hc : c.isCopy = false) :
    sees cs c = (s.step c).2 ∧ Reaches (cs ++ [c]) (s.step c).1 := by
  obtain ⟨s', h1, h2⟩ := h.step c
  have := specStep_eq hc h1
  rw [← this]
  exact ⟨rfl, h2⟩

theorem SState.read_fst (s : SState F) (x : Arg F) (f : SQ F → Out F) : (s.read x f).1 = s := by
  unfold SState.read
  cases x.sevalUnc s.env with
  | none => simp [SState.invalid]
  | some _ => rfl

/-- Reading commands do not change the state of the specification. -/
theorem SState.step_read (s : SState F) {c : Cmd F} (hc : c.isRead = true) : (s.step c).1 = s := by
  cases c <;> simp only [Cmd.isRead, Bool.false_eq_true] at hc <;>
    simp only [SState.step, SState.read_fst]
  case nominal x => split <;> simp [SState.invalid]
  case stdDev x => split <;> simp [SState.invalid]
  case covarianceMatrix x => split <;> simp [SState.invalid]
  case compare op x y =>
    split
    · split <;> simp [SState.invalid]
    · simp [SState.invalid]

theorem Cmd.isRead_isCopy {c : Cmd F} (h : c.isRead = true) : c.isCopy = false := by
  cases c <;> first | rfl | cases h

theorem Reaches.read {cs : List (Cmd F)} {s : SState F} (h : Reaches cs s) {c : Cmd F}
    (hc : c.isRead = true) : sees cs c = (s.step c).2 ∧ Reaches (cs ++ [c]) s := by
  obtain ⟨h1, h2⟩ := h.snoc c (Cmd.isRead_isCopy hc)
  rw [SState.step_read s hc] at h2
  exact ⟨h1, h2⟩

theorem Reaches.reads {cs : List (Cmd F)} {s : SState F} (h : Reaches cs s) {rs : List (Cmd F)}
    (hr : ∀ c ∈ rs, c.isRead = true) : Reaches (cs ++ rs) s := by
  induction rs generalizing cs with
  | nil => simpa using h
  | cons c rs ih =>
    have h1 := (h.read (hr c (by simp))).2
    have h2 := ih h1 (fun c hc => hr c (by simp [hc]))
    simpa using h2

/-- Facts about the states of the specification that histories reach. -/
structure SState.WF (s : SState F) : Prop where
  keys : ∀ q, some (.unc q) ∈ s.env → ∀ v x, q.grad v = some x → v < s.vars.length
  var : ∀ q, some (.unc q) ∈ s.env → ∀ v, q.var = some v →
    q.grad = Lin.single v ∧ ∃ c, s.vars[v]? = some c ∧ c.nom = q.nom
  std : ∀ (v : VarId) (c : SVar F), s.vars[v]? = some c → specBadStd c.std = false

theorem Reaches.wf {cs : List (Cmd F)} {s : SState F} (h : Reaches cs s) : s.WF := by
  obtain ⟨-, g, h⟩ := h
  have hmem : ∀ q, some (SVal.unc q) ∈ s.env → ∃ u, some (Val.unc u) ∈ (after cs).env ∧
      u.abs g = q := by
    intro q hq
    rw [h.env] at hq
    obtain ⟨o, ho, e⟩ := List.mem_map.mp hq
    cases o with
    | none => cases e
    | some v =>
      cases v with
      | plain _ => cases e
      | unc u => simp [Val.abs] at e; exact ⟨u, ho, e⟩
  refine ⟨?_, ?_, ?_⟩
  · intro q hq v x hx
    obtain ⟨u, hu, rfl⟩ := hmem q hq
    have := h.inv.keys u.lin (h.ok _ hu).1 v x hx
    rw [h.vars]; simpa [World.svars] using this
  · intro q hq v hv
    obtain ⟨u, hu, rfl⟩ := hmem q hq
    have hok : u.OK (after cs).w := h.ok _ hu
    have hg := (hok.var_grad h.inv hv).1
    obtain ⟨cell, h1, h2, h3⟩ := hok.2 v hv
    refine ⟨hg, cell.abs, ?_, h3⟩
    rw [h.vars]; simp [World.svars, h1]
  · intro v c hc
    rw [h.vars] at hc
    simp only [World.svars, List.getElem?_map] at hc
    cases hv : (after cs).w.vars[v]? with
    | none => simp [hv] at hc
    | some cell =>
      simp [hv] at hc
      subst hc
      exact h.inv.std v cell hv

theorem Reaches.env_length {cs : List (Cmd F)} {s : SState F} (h : Reaches cs s) :
    s.env.length = (after cs).env.length := by
  obtain ⟨-, g, h⟩ := h
  rw [h.env]; simp

/-- The quantity that an argument refers to is one of the bound values. -/
theorem sevalUnc_mem {env : List (Option (SVal F))} {x : Arg F} {q : SQ F}
    (h : x.sevalUnc env = some q) : some (.unc q) ∈ env := by
  cases x with
  | const v => simp [Arg.sevalUnc, Arg.seval] at h
  | ref k =>
    simp only [Arg.sevalUnc, Arg.seval] at h
    cases hk : env[k]? with
    | none => simp [hk] at h
    | some o =>
      cases o with
      | none => simp [hk] at h
      | some v =>
        cases v with
        | plain _ => simp [hk] at h
        | unc q' =>
          simp [hk] at h
          subst h
          exact List.mem_of_getElem? hk

/-- Reading the derivatives tells which quantity the argument is. -/
theorem Reaches.derivatives {cs : List (Cmd F)} {s : SState F} (h : Reaches cs s) {x : Arg F}
    {D : VarId → Option F} (hD : sees cs (.derivatives x) = .dict D) :
    ∃ q, x.sevalUnc s.env = some q ∧ q.grad = D := by
  rw [(h.read (c := .derivatives x) rfl).1] at hD
  simp only [SState.step, SState.read] at hD
  split at hD
  · cases hD
  · rename_i q hq
    simp only [Out.dict.injEq] at hD
    exact ⟨q, hq, hD⟩

/-- What is read of a quantity is what the specification says. -/
theorem Reaches.quantity {cs : List (Cmd F)} {s : SState F} (h : Reaches cs s) {x : Arg F} {n : F}
    {D : VarId → Option F} {σ : VarId → F} (hq : Quantity cs x n D σ) :
    ∃ q, x.sevalUnc s.env = some q ∧ q.nom = n ∧ q.grad = D ∧
      ∀ v, D v ≠ none → ∃ cell, s.vars[v]? = some cell ∧ cell.std = σ v := by
  obtain ⟨q, h1, h2⟩ := h.derivatives hq.derivatives
  refine ⟨q, h1, ?_, h2, ?_⟩
  · have := hq.nominal
    rw [(h.read (c := .nominal x) rfl).1] at this
    simp only [Arg.sevalUnc] at h1
    split at h1
    · rename_i q' hx
      simp only [SState.step, hx] at this
      cases h1
      simpa [SVal.nominal] using this
    · cases h1
  · intro v hv
    have hs := hq.std v hv
    obtain ⟨d, hd⟩ := Option.ne_none_iff_exists'.mp hv
    rw [← h2] at hd
    have hlt := h.wf.keys q (sevalUnc_mem h1) v d hd
    have hcell : s.vars[v]? = some s.vars[v] := by simp [hlt]
    refine ⟨s.vars[v], hcell, ?_⟩
    obtain ⟨-, hr⟩ := h.snoc (.variable x v) rfl
    simp only [SState.step, h1, hd, hcell] at hr
    unfold seesKeyStd at hs
    rw [(hr.read (c := .stdDev (next cs)) rfl).1] at hs
    simp only [SState.step, next, ← h.env_length, Arg.seval] at hs
    simp [specStdDev, hcell, PyRes.out] at hs
    exact hs

/-- Every number with uncertainty can be read. -/
theorem Reaches.quantity_exists {cs : List (Cmd F)} {s : SState F} (h : Reaches cs s) {x : Arg F}
    {q : SQ F} (h1 : x.sevalUnc s.env = some q) :
    Quantity cs x q.nom q.grad (fun v => ((s.vars[v]?).map (·.std)).getD 0) := by
  refine ⟨?_, ?_, ?_⟩
  · rw [(h.read (c := .nominal x) rfl).1]
    simp only [Arg.sevalUnc] at h1
    split at h1
    · rename_i q' hx
      simp only [SState.step, hx]
      cases h1
      rfl
    · cases h1
  · rw [(h.read (c := .derivatives x) rfl).1]
    simp only [SState.step, SState.read, h1]
  · intro v hv
    obtain ⟨d, hd⟩ := Option.ne_none_iff_exists'.mp hv
    have hlt := h.wf.keys q (sevalUnc_mem h1) v d hd
    have hcell : s.vars[v]? = some s.vars[v] := by simp [hlt]
    obtain ⟨-, hr⟩ := h.snoc (.variable x v) rfl
    simp only [SState.step, h1, hd, hcell] at hr
    unfold seesKeyStd
    rw [(hr.read (c := .stdDev (next cs)) rfl).1]
    simp only [SState.step, next, ← h.env_length, Arg.seval]
    simp [specStdDev, hcell, PyRes.out]

end exact

end Unc
