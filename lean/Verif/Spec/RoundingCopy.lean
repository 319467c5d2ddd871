import Verif.Spec.Rounding

/-
The exact derivatives after histories that contain copies. A copy is made of new variables, whose
identities are not specified.
-/

namespace Unc

set_option autoImplicit false

variable {F : Type}

/-- Specification of the copy of a list of quantities: `vars` are the variables before, `vars'` after,
`qs'` are the copies of `qs`. The existing variables are unchanged; the new ones are copies of existing
ones (same nominal value, same standard deviation), each one once; the copied quantities have the same
nominal value and the same derivatives as the originals (and the same history, for the error bounds),
but in terms of the new variables. -/
structure ExactCopy (vars vars' : List (RVar F)) (ρ : List (VarId × VarId)) (qs qs' : List (RQ F)) :
    Prop where
  old : ∃ l, vars' = vars ++ l
  oneToOne : OneToOne ρ
  fresh : ∀ v v', (v, v') ∈ ρ → v < vars.length ∧ vars.length ≤ v' ∧ v' < vars'.length ∧
    vars'[v']? = vars[v]?
  all : ∀ v', vars.length ≤ v' → v' < vars'.length → ∃ v, (v, v') ∈ ρ
  copies : List.Forall₂ (fun q q' => q'.nom = q.nom ∧
    (∀ v I, q.grad v = some I → ∃ v', (v, v') ∈ ρ ∧ q'.grad v' = some I) ∧
    (∀ v' I, q'.grad v' = some I → ∃ v, (v, v') ∈ ρ ∧ q.grad v = some I) ∧
    (∀ v, q.var = some v → ∃ v', q'.var = some v' ∧ (v, v') ∈ ρ) ∧ (q.var = none → q'.var = none))
    qs qs'

/-- `s'` is `s` after a copy of the quantities `qs`, which is bound. -/
def ExactCopied (s s' : RState F) (qs : List (RQ F)) : Prop :=
  ∃ ρ qs', ExactCopy s.vars s'.vars ρ qs qs' ∧ s'.fns = s.fns ∧
    s'.env = s.env ++ qs'.map (fun q => some (.unc q))

variable [PyMath F] [Rounded F]

/-- One command. -/
def ExactStep (s : RState F) (c : Cmd F) (s' : RState F) : Prop :=
  match c with
  | .copy x =>
    match x.revalUnc s.env with
    | none => s' = s.skip 1
    | some q =>
      match q.var with
      | none => s' = { s with env := s.env ++ [some (.unc q)] }   -- same quantity
      | some _ => ExactCopied s s' [q]
  | .deepcopy x =>
    match x.revalUnc s.env with
    | none => s' = s.skip 1
    | some q => ExactCopied s s' [q]
  | .pickle xs =>
    match evalArgs (Arg.revalUnc s.env) xs with
    | none => s' = s.skip xs.length
    | some qs => ExactCopied s s' qs
  | c => s' = s.step c

/-- Sequences of commands. -/
inductive ExactRun : RState F → List (Cmd F) → RState F → Prop where
  | nil (s) : ExactRun s [] s
  | cons {s c s1 cs s2} : ExactStep s c s1 → ExactRun s1 cs s2 → ExactRun s (c :: cs) s2

/-- `s` is a state after the history `cs`. -/
def ExactlyRuns (cs : List (Cmd F)) (s : RState F) : Prop :=
  ExactRun { vars := [], fns := opDefs, env := [] } cs s

end Unc
