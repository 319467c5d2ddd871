import Verif.Props.C27_Umath

/-
C31: `umath.frexp`.

The property fails: the list given to `LinearCombination` (umath_core.py 398) is not a list of
`(coefficient, LinearCombination)` pairs. The mantissa and the exponent are correct, but no derivative
can be obtained.
-/

set_option autoImplicit false
set_option linter.unusedSectionVars false

namespace Unc

section
variable {F : Type} [PyMath F]

theorem readDerivs_junk {h : Heap F} {i : NodeId} {ts : List (Item F)}
    (hi : h[i]? = some (.terms (.junk :: ts))) :
    readDerivs h i = (h.set i (.terms ts), .error .typeError) := by
  have : expand h i = (h.set i (.terms ts), .error .typeError) := by
    simp [expand, fuelFor, expandLoop, expandStep, hi]
  simp [readDerivs, hi, this]

theorem readDerivs_empty {h : Heap F} {i : NodeId} (hi : h[i]? = some (.terms [])) :
    readDerivs h i = (h.set i (.dict []), .ok []) := by
  have : expand h i = (h.set i (.dict []), .ok ()) := by
    simp [expand, fuelFor, expandLoop, expandStep, hi]
  have hlt : i < h.length := by
    by_contra hc
    rw [List.getElem?_eq_none (by omega)] at hi
    cases hi
  simp only [readDerivs, hi, this, List.getElem?_set_self hlt]

/-- The successive reads of the derivatives of a mantissa given by `frexp`. -/
theorem World.derivatives_junk (w : World F) (nom : F) (var : Option VarId) :
    let u : UF F := { nom := nom, lin := w.nodes.length, var := var }
    let w0 : World F := (w.alloc (.terms [.junk, .junk])).1
    let w1 := (w0.derivatives u).1
    let w2 := (w1.derivatives u).1
    (w0.derivatives u).2 = .error .typeError ∧ (w1.derivatives u).2 = .error .typeError ∧
      (w2.derivatives u).2 = .ok [] := by
  intro u w0 w1 w2
  have h0 : w0.nodes[w.nodes.length]? = some (.terms [.junk, .junk]) := by simp [w0, World.alloc]
  have e0 := readDerivs_junk h0
  have h1 : w1.nodes[w.nodes.length]? = some (.terms [.junk]) := by
    simp only [w1, u, World.derivatives, e0]
    simp [w0, World.alloc]
  have e1 := readDerivs_junk h1
  have h2 : w2.nodes[w.nodes.length]? = some (.terms []) := by
    have hl : w.nodes.length < w1.nodes.length := by
      by_contra hc
      rw [List.getElem?_eq_none (by omega)] at h1
      cases h1
    simp [w2, u, World.derivatives, e1, hl]
  have e2 := readDerivs_empty h2
  refine ⟨?_, ?_, ?_⟩
  · simp only [World.derivatives, u, e0]
  · simp only [World.derivatives, u, e1]
  · simp only [World.derivatives, u, e2]

variable [ExactLin F]

/-- What `umath.frexp` does with a number with uncertainty, after any history. -/
theorem frexp_reachable {cs : List (Cmd F)} {a : Arg F} {x : F} {A : Lin F}
    (ha : SeenAs cs a (.flt x, some A)) (hA : ∃ v, A v ≠ none) :
    ∃ v, a.eval (after cs).env = some v ∧
      (after cs).w.frexp v = (((after cs).w.alloc (.terms [.junk, .junk])).1,
        .ok (.unc { nom := (PyMath.frexp x).1, lin := (after cs).w.nodes.length, var := none },
          (PyMath.frexp x).2)) := by
  obtain ⟨s, hs⟩ := Reaches.exists cs
  obtain ⟨va, ea, sa⟩ := hs.seen ha
  obtain ⟨-, g, hr⟩ := hs
  rcases seen_flt sa with ⟨p, rfl, rfl, e⟩ | ⟨-, e⟩
  swap
  · cases e
  obtain rfl : A = p.grad := Option.some.inj e
  cases a with
  | const v => simp [Arg.seval] at ea
  | ref k =>
    simp only [Arg.seval, hr.env] at ea
    cases hk : (after cs).env[k]? with
    | none => simp [hk] at ea
    | some o =>
      cases o with
      | none => simp [hk] at ea
      | some v =>
        cases v with
        | plain _ => simp [hk, Val.abs] at ea
        | unc u =>
          simp [hk, Val.abs] at ea
          subst ea
          have hmem := List.mem_of_getElem? hk
          obtain ⟨v, hv⟩ := hA
          obtain ⟨d, hd⟩ := Option.ne_none_iff_exists'.mp hv
          have ht := World.linTruthy_spec hr.inv (hr.ok _ hmem) ⟨v, d, hd⟩
          refine ⟨.unc u, by simp [Arg.eval, hk], ?_⟩
          simp only [World.frexp, World.toAffine, ht]
          rfl

/-- **C31** (partial: mantissa and exponent only): after any history, `umath.frexp(x)`, for a
number with uncertainty that depends on at least one variable, returns a number
with uncertainty whose nominal value is the mantissa given by `math.frexp`, and the exponent. Missing:
the derivatives, see `C31_fails`. -/
theorem C31_nominal_partial {cs : List (Cmd F)} {a : Arg F} {x : F} {A : Lin F}
    (ha : SeenAs cs a (.flt x, some A)) (hA : ∃ v, A v ≠ none) :
    ∃ v w u, a.eval (after cs).env = some v ∧
      (after cs).w.frexp v = (w, .ok (.unc u, (PyMath.frexp x).2)) ∧ u.nom = (PyMath.frexp x).1 := by
  obtain ⟨v, h1, h2⟩ := frexp_reachable ha hA
  exact ⟨v, _, _, h1, h2, rfl⟩

/-- **C31** fails for every number with uncertainty that depends on some variable, after any history: the first two attempts to read the
derivatives of the mantissa raise `TypeError`, and the third one finds no derivative at all (so that the
standard deviation silently becomes that of an exact number). -/
theorem C31_fails {cs : List (Cmd F)} {a : Arg F} {x : F} {A : Lin F}
    (ha : SeenAs cs a (.flt x, some A)) (hA : ∃ v, A v ≠ none) :
    ∃ v w u, a.eval (after cs).env = some v ∧
      (after cs).w.frexp v = (w, .ok (.unc u, (PyMath.frexp x).2)) ∧
      (w.derivatives u).2 = .error .typeError ∧
      ((w.derivatives u).1.derivatives u).2 = .error .typeError ∧
      (((w.derivatives u).1.derivatives u).1.derivatives u).2 = .ok [] := by
  obtain ⟨v, h1, h2⟩ := frexp_reachable ha hA
  exact ⟨v, _, _, h1, h2, World.derivatives_junk _ _ _⟩

/-- Plain floats: `umath.frexp` is `math.frexp`. -/
theorem C31_plain_partial (w : World F) (x : F) :
    (w.frexp (.plain (.flt x))).2 = .ok (.plain (.flt (PyMath.frexp x).1), (PyMath.frexp x).2) := by
  have e : (w.alloc (LC.dict ([] : Derivs F))).1.linTruthy
      { nom := x, lin := w.nodes.length, var := none } = .ok false := by
    simp [World.linTruthy, World.alloc, LC.truthy]
  simp only [World.frexp, World.toAffine]
  have : (w.alloc (LC.dict ([] : Derivs F))).2 = w.nodes.length := rfl
  simp only [this, e]

end

/-- `frexp(x*y)` for x = 3±2, y = 5±1. -/
example : ∃ v w u, (Arg.ref 2).eval (after (F := NR) exCs).env = some v ∧
    (after exCs).w.frexp v = (w, .ok (.unc u, (PyMath.frexp (NR.fin 15)).2)) ∧
    (w.derivatives u).2 = .error .typeError :=
  let ⟨v, w, u, h1, h2, h3, _⟩ := C31_fails (cs := exCs) (a := .ref 2) (x := NR.fin 15) (A := exP)
    ⟨ex_p.nominal, by simp [SeenAs, ex_p.derivatives]⟩ ⟨0, by simp [exP]⟩
  ⟨v, w, u, h1, h2, h3⟩

end Unc
