import Mathlib.Data.List.Forall2
import Verif.Spec.World

/-
What a copy of quantities is: a one-to-one renaming of the variables.
-/

namespace Unc

variable {F : Type}

/-- `ρ` (a list of pairs) relates one variable to one variable. -/
structure OneToOne (ρ : List (VarId × VarId)) : Prop where
  left : ∀ v a b, (v, a) ∈ ρ → (v, b) ∈ ρ → a = b
  right : ∀ v a b, (a, v) ∈ ρ → (b, v) ∈ ρ → a = b

/-- The gradient `l'` is the gradient `l` for the variables renamed by `ρ`. -/
structure Renames (ρ : List (VarId × VarId)) (l l' : Lin F) : Prop where
  forth : ∀ v x, l v = some x → ∃ v', (v, v') ∈ ρ ∧ l' v' = some x
  back : ∀ v' x, l' v' = some x → ∃ v, (v, v') ∈ ρ ∧ l v = some x

/-- Specification of the copy of a list of quantities: `vars` are the variables before, `vars'`
after, `qs'` are the copies of `qs`. The existing variables are unchanged; the new ones are
copies of existing ones (same nominal value, standard deviation and tag), each one once; the copied
quantities have the same nominal value and the same dependency on their variables as the original,
but in terms of the new variables. -/
structure SpecCopy (vars vars' : List (SVar F)) (ρ : List (VarId × VarId)) (qs qs' : List (SQ F)) :
    Prop where
  old : ∃ l, vars' = vars ++ l
  oneToOne : OneToOne ρ
  fresh : ∀ v v', (v, v') ∈ ρ → v < vars.length ∧ vars.length ≤ v' ∧ v' < vars'.length ∧
    vars'[v']? = vars[v]?
  all : ∀ v', vars.length ≤ v' → v' < vars'.length → ∃ v, (v, v') ∈ ρ
  copies : List.Forall₂ (fun q q' => q'.nom = q.nom ∧ Renames ρ q.grad q'.grad ∧
    (∀ v, q.var = some v → ∃ v', q'.var = some v' ∧ (v, v') ∈ ρ) ∧ (q.var = none → q'.var = none))
    qs qs'

end Unc
