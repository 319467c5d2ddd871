import Verif.Lemmas.Weave2
import Verif.Py.ZN

/-
C85: unrelated calculations do not interfere.
-/

namespace Unc

set_option linter.unusedSectionVars false
set_option autoImplicit false

variable {F : Type} [PyMath F] [ExactLin F]

/-- **C85**. After a common history `cs`, any number of programs run in the same interpreter, in any order
(`w`: program number and command). They can create variables, wrap functions, calculate with the common
values and with their own, make copies, read everything, and change the standard deviations of their own
values; program `i` can also change those of the common values, but the others cannot.
Then program `i` sees what it would see if it ran alone, up to a one-to-one correspondence between
variables (that is the identity on the variables of the common values).
(Keys of `derivatives` are not used as values: variables have no names that are known in advance.) -/
theorem C85_independent (cs : List (Cmd F)) (w : List (Nat × Cmd F)) (i : Nat)
    (hv : ∀ p ∈ w, p.2.isVariable = false)
    (hs : ∀ p ∈ w, p.1 ≠ i → p.2.setsBefore (after cs).env.length = false) :
    ∃ ρ, OneToOne ρ ∧
      (∀ x D v, sees cs (.derivatives x) = .dict D → D v ≠ none → (v, v) ∈ ρ) ∧
      List.Forall₂ (Out.Same ρ)
        ((after cs).run (commandsOf i w)).2
        (seenBy i w ((after cs).run (weaveAfter cs w)).2) := by
  obtain ⟨s, h⟩ := Reaches.exists cs
  have hst := Together.start h i
  rw [← h.env_length] at hs
  obtain ⟨ρ, q1, q2, q3⟩ := hst.run w h h hv hs
  refine ⟨ρ, q2, ?_, ?_⟩
  · intro x D v hD hv
    obtain ⟨q, h3, h4⟩ := h.derivatives hD
    obtain ⟨d, hd⟩ := Option.ne_none_iff_exists'.mp hv
    subst h4
    exact q1 _ (mem_idRen.mpr ⟨rfl, h.wf.keys q (sevalUnc_mem h3) v d hd⟩)
  · rw [weaveAfter, ← h.env_length, ← h.fnsOf_eq]
    exact q3

/-- Corollary for what is not a dictionary: nominal values, standard deviations, covariances, comparisons,
errors, etc. are the same. -/
theorem C85_same (cs : List (Cmd F)) (w : List (Nat × Cmd F)) (i : Nat)
    (hv : ∀ p ∈ w, p.2.isVariable = false)
    (hs : ∀ p ∈ w, p.1 ≠ i → p.2.setsBefore (after cs).env.length = false)
    (k : Nat) (o : Out F) (ho : ∀ D, o ≠ .dict D) :
    ((after cs).run (commandsOf i w)).2[k]? = some o ↔
      (seenBy i w ((after cs).run (weaveAfter cs w)).2)[k]? = some o := by
  obtain ⟨ρ, -, -, h⟩ := C85_independent cs w i hv hs
  generalize ((after cs).run (commandsOf i w)).2 = l at h ⊢
  generalize seenBy i w ((after cs).run (weaveAfter cs w)).2 = l' at h ⊢
  induction h generalizing k with
  | nil => simp
  | @cons a b l l' hab _ ih =>
    cases k with
    | succ k => simpa using ih k
    | zero =>
      simp only [List.getElem?_cons_zero, Option.some.injEq]
      constructor
      · rintro rfl
        cases a <;> cases b <;> first | exact hab.symm | exact absurd rfl (ho _) | cases hab
      · rintro rfl
        cases a <;> cases b <;> first | exact hab | exact absurd rfl (ho _) | cases hab

/-- A common value, and two programs that both use it and have variables of their own. -/
def exC85 : List (Cmd ZN) := [.ufloat (.fin 3) (.fin 1) none]

def exC85w : List (Nat × Cmd ZN) :=
  [(0, .ufloat (.fin 5) (.fin 2) none),            -- y = ufloat(5, 2)
   (1, .ufloat (.fin 7) (.fin 3) (some "z")),      --     z = ufloat(7, 3, "z")
   (1, .binop .mul (.ref 1) (.ref 0)),             --     p = z*x
   (0, .binop .mul (.ref 0) (.ref 1)),             -- q = x*y
   (1, .setStd (.ref 1) (.fin 4)),                 --     z.std_dev = 4
   (1, .deepcopy (.ref 2)),                        --     c = copy.deepcopy(p)
   (1, .s (.ref 2)),                               --     p.s
   (0, .setStd (.ref 0) (.fin 0)),                 -- x.std_dev = 0
   (0, .deepcopy (.ref 2)),                        -- d = copy.deepcopy(q)
   (1, .setStd (.ref 5) (.fin 1)),                 --     name that does not exist
   (0, .derivatives (.ref 3)),                     -- d.derivatives
   (0, .s (.ref 3))]                               -- d.s

example : (∀ p ∈ exC85w, p.2.isVariable = false) ∧
    (∀ p ∈ exC85w, p.1 ≠ 0 → p.2.setsBefore (after exC85).env.length = false) := by
  simp only [exC85w, List.mem_cons, List.not_mem_nil, or_false, forall_eq_or_imp, forall_eq]
  decide +kernel

set_option maxRecDepth 100000 in
/-- What is seen: the standard deviation of the product is `|x|*2 = 6` (as `x` is exact after the change),
and this does not depend on the other program, whose values are numbered in between. -/
example : ((after exC85).run (commandsOf 0 exC85w)).2[5]? = some (.val (.flt (.fin 6))) ∧
    (seenBy 0 exC85w ((after exC85).run (weaveAfter exC85 exC85w)).2)[5]? = some (.val (.flt (.fin 6))) ∧
    (weaveAfter exC85 exC85w)[3]? = some (.binop .mul (.ref 0) (.ref 1)) ∧
    (weaveAfter exC85 exC85w)[8]? = some (.deepcopy (.ref 4)) := by
  refine ⟨?_, ?_, ?_, ?_⟩ <;> rfl

/-- The condition is needed: when the other program changes the standard deviation of the common value,
this is seen. -/
def exC85shared : List (Nat × Cmd ZN) := [(1, .setStd (.ref 0) (.fin 9)), (0, .s (.ref 0))]

set_option maxRecDepth 100000 in
example : ((after exC85).run (commandsOf 0 exC85shared)).2 = [.val (.flt (.fin 1))] ∧
    seenBy 0 exC85shared ((after exC85).run (weaveAfter exC85 exC85shared)).2 = [.val (.flt (.fin 9))] :=
  ⟨rfl, rfl⟩

end Unc
