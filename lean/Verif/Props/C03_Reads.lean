import Verif.Lemmas.Iso2
import Verif.Py.ZN

/-
C03: reading something never changes any other result.
-/

namespace Unc

set_option linter.unusedSectionVars false
set_option autoImplicit false

variable {F : Type} [PyMath F] [ExactLin F]

/-- **Refinement**. Every history of commands is a history of the specification of linear error
propagation (`Spec/Machine.lean`: quantities are nominal values and gradients; nothing is lazy, shared
or cached, and reading does not change anything), with the same observations. -/
theorem C03_refinement (cs : List (Cmd F)) : ∃ s, SpecRun SState.init cs s (outs cs) := by
  obtain ⟨s, h⟩ := Reaches.exists cs
  exact ⟨s, h.1⟩

/-- **C03**. After any history `cs`, consider two ways of going on, `as` and `bs`, that differ only by
their reading commands (`effects as = effects bs`): any command then sees the same thing. Here without
copies in `as` and `bs`. -/
theorem C03_reads (cs as bs : List (Cmd F)) (hab : effects as = effects bs)
    (hc : ∀ c ∈ effects as, c.isCopy = false) (c : Cmd F) (hcc : c.isCopy = false) :
    sees (cs ++ as) c = sees (cs ++ bs) c := by
  obtain ⟨s, hs⟩ := Reaches.exists cs
  obtain ⟨s1, os1, h1, r1⟩ := hs.effects as
  obtain ⟨s2, os2, h2, r2⟩ := hs.effects bs
  rw [← hab] at r2
  have e := SpecRun.det hc r1 r2
  subst e
  rw [(h1.snoc c hcc).1, (h2.snoc c hcc).1]

/-- **C03**, with copies: the new variables that copies create can be numbered differently in both
histories, but everything is the same for a one-to-one correspondence between the variables (that is
the identity on the variables that existed before). As variable numbers are not known in advance,
commands cannot use them. -/
theorem C03_reads_and_copies (cs as bs : List (Cmd F)) (hab : effects as = effects bs)
    (hv : ∀ c ∈ effects as, c.isVariable = false) :
    ∃ ρ, OneToOne ρ ∧
      (∀ x D v, sees cs (.derivatives x) = .dict D → D v ≠ none → (v, v) ∈ ρ) ∧
      ∀ c : Cmd F, c.isRead = true → Out.Same ρ (sees (cs ++ as) c) (sees (cs ++ bs) c) := by
  obtain ⟨s, hs⟩ := Reaches.exists cs
  obtain ⟨s1, os1, h1, r1⟩ := hs.effects as
  obtain ⟨s2, os2, h2, r2⟩ := hs.effects bs
  rw [← hab] at r2
  obtain ⟨ρ, hρ, hi⟩ := SpecRun.ren (Iso.refl hs.wf) hv r1 r2
  refine ⟨ρ, hi.vars.one, ?_, ?_⟩
  · intro x D v hD hv
    obtain ⟨q, h3, h4⟩ := hs.derivatives hD
    obtain ⟨d, hd⟩ := Option.ne_none_iff_exists'.mp hv
    subst h4
    exact hρ _ (mem_idRen.mpr ⟨rfl, hs.wf.keys q (sevalUnc_mem h3) v d hd⟩)
  · intro c hc
    have hvar : c.isVariable = false := by cases c <;> first | rfl | cases hc
    have h3 := SState.step_ren hi c (Cmd.isRead_isCopy hc) hvar
    obtain ⟨ρ', -, -, h4⟩ := h3
    rw [(h1.read hc).1, (h2.read hc).1]
    have h5 : Out.Same ρ (s1.step c).2 (s2.step c).2 := by
      cases c <;> simp only [Cmd.isRead, Bool.false_eq_true] at hc
      case derivatives x =>
        have := hi.sevalUnc x
        simp only [SState.step, SState.read]
        revert this
        generalize x.sevalUnc s1.env = a
        generalize x.sevalUnc s2.env = b
        intro h
        cases h with
        | none => rfl
        | some h => exact h.grad.renames
      case errorComponents x =>
        have := hi.sevalUnc x
        simp only [SState.step, SState.read]
        revert this
        generalize x.sevalUnc s1.env = a
        generalize x.sevalUnc s2.env = b
        intro h
        cases h with
        | none => rfl
        | some h => exact (specErrorComponents_ren hi.vars h.grad).renames
      all_goals
        revert h4
        generalize hs1 : (s1.step _).2 = o1
        generalize hs2 : (s2.step _).2 = o2
        intro h4
        cases o1 <;> cases o2 <;> first
          | exact h4
          | (exfalso
             simp only [SState.step, SState.read] at hs1
             repeat' split at hs1
             all_goals first
               | cases hs1
               | (simp only [SState.invalid] at hs1; cases hs1)
               | (revert hs1; unfold PyRes.out; split <;> intro h <;> cases h))
    exact h5

/-- Two histories with the same effects and different reads, with a copy. -/
def exC03a : List (Cmd ZN) :=
  [.ufloat (.fin 3) (.fin 1) none, .ufloat (.fin 5) (.fin 2) none, .binop .mul (.ref 0) (.ref 1),
   .binop .add (.ref 2) (.ref 0), .deepcopy (.ref 3), .setStd (.ref 1) (.fin 7)]

def exC03b : List (Cmd ZN) :=
  [.ufloat (.fin 3) (.fin 1) none, .stdDev (.ref 0), .ufloat (.fin 5) (.fin 2) none,
   .binop .mul (.ref 0) (.ref 1), .derivatives (.ref 2),
   .binop .add (.ref 2) (.ref 0), .compare .eq (.ref 2) (.ref 3), .deepcopy (.ref 3), .toBool (.ref 4),
   .setStd (.ref 1) (.fin 7), .covarianceMatrix [.ref 0, .ref 1]]

example : effects exC03a = effects exC03b ∧ (∀ c ∈ effects exC03a, c.isVariable = false) ∧
    sees exC03a (.s (.ref 3)) = sees exC03b (.s (.ref 3)) := by
  refine ⟨rfl, ?_, rfl⟩
  intro c hc
  simp only [exC03a, effects, List.filter, Cmd.isRead, Bool.not_false, Bool.not_true] at hc
  simp only [List.mem_cons, List.not_mem_nil, or_false] at hc
  rcases hc with rfl | rfl | rfl | rfl | rfl | rfl <;> rfl

end Unc
