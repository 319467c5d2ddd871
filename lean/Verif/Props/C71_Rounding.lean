import Verif.Lemmas.RoundingCopy
import Verif.Lemmas.RoundingMachine
import Verif.Lemmas.RoundingStd
import Verif.Py.B64
import Verif.Spec.Same

/-
C71: with floating-point arithmetic, i.e. when each operation is rounded, derivatives, error components
and standard deviations are within explicit bounds of their exact values, whatever is read and in
whatever order. Exact values and bounds are defined in `Spec/Rounding.lean`.
-/

namespace Unc

set_option autoImplicit false

section
variable {F : Type} [PyMath F] [Halts F] [Rounded F]

theorem RRel.read_ok {m : Machine F} {x : Arg F} {f : World F → UF F → World F × PyRes (Out F)} {o : Out F}
    (ho : (m.read x f).2 = o) (hi : o ≠ .invalid) (he : ∀ e, o ≠ .err e) :
    ∃ u, x.evalUnc m.env = some u ∧ (f m.w u).2 = .ok o := by
  simp only [Machine.read] at ho
  cases hx : x.evalUnc m.env with
  | none => rw [hx] at ho; exact absurd ho.symm hi
  | some u =>
    rw [hx] at ho
    simp only at ho
    refine ⟨u, rfl, ?_⟩
    generalize f m.w u = r at ho ⊢
    obtain ⟨w, r⟩ := r
    cases r with
    | error e => exact absurd ho.symm (he e)
    | ok o' => simp only at ho; rw [ho]

theorem mapRes_ok {α β : Type} {f : α → β} {r : World F × PyRes α} {y : β}
    (h : (mapRes f r).2 = .ok y) : ∃ a, r.2 = .ok a ∧ f a = y := by
  simp only [mapRes] at h
  cases hr : r.2 with
  | error e => rw [hr] at h; cases h
  | ok a => rw [hr] at h; exact ⟨a, rfl, by simpa [Except.map] using h⟩

theorem RRel.sees_derivatives {g : NodeId → Grad} {s : RState F} (cs : List (Cmd F)) (hg : RRel g (Unc.after cs) s) (x : Arg F)
    (D : VarId → Option F) (h : sees cs (.derivatives x) = .dict D) :
    ∃ q, x.revalUnc s.env = some q ∧ ∀ v,
      ((D v).isSome = (q.grad v).isSome) ∧
      ∀ y I, D v = some y → q.grad v = some I → Rounded.Fin y →
        |Rounded.val y - I.exact| ≤ I.bound F := by
  obtain ⟨u, hu, hr⟩ := RRel.read_ok h (by simp) (by simp)
  have hv := hg.mshape.evalUnc hu
  obtain ⟨d, hd, hD⟩ := mapRes_ok hr
  obtain ⟨w', d', a1, _, a3, a4, _⟩ := World.derivatives_rounded hg.inv hv
  rw [a1] at hd
  simp only [Except.ok.injEq] at hd
  subst hd
  simp only [Out.dict.injEq] at hD
  subst hD
  refine ⟨u.rabs g, by rw [hg.evalUnc x, hu]; rfl, fun v => ⟨(a4 v).isSome, ?_⟩⟩
  intro y I hy hI hf
  simp only at hy
  have := a4 v
  have hI' : g u.lin v = some I := hI
  rw [hy, hI'] at this
  exact this.near hf

/-- **C71**, derivatives. After any history `cs` of commands (without copies), each derivative read that
is finite differs from the exact derivative of the quantity by no more than the bound; and the quantity
has derivatives exactly with respect to the variables that appear in its expression. -/
theorem C71_derivatives (cs : List (Cmd F)) (hc : ∀ c ∈ cs, c.isCopy = false) (x : Arg F)
    (D : VarId → Option F) (h : sees cs (.derivatives x) = .dict D) :
    ∃ q, x.revalUnc (exactly cs).env = some q ∧ ∀ v,
      ((D v).isSome = (q.grad v).isSome) ∧
      ∀ y I, D v = some y → q.grad v = some I → Rounded.Fin y →
        |Rounded.val y - I.exact| ≤ I.bound F := by
  obtain ⟨g, hg⟩ := RRel.after cs hc
  exact RRel.sees_derivatives cs hg x D h

/-- **C71**, derivatives, with the bound written in full: a relative error of `(1+u)^N - 1`, relatively
to the sum `mag` of the absolute values of the products of partial derivatives, where `N` is the number
of operations on the longest path to the variable plus the number of paths, minus one; and the effect of
underflows, which is proportional to `η` (`2^-1075` for doubles). -/
theorem C71_derivatives_relative (cs : List (Cmd F))
    (hc : ∀ c ∈ cs, c.isCopy = false) (x : Arg F)
    (D : VarId → Option F) (h : sees cs (.derivatives x) = .dict D) :
    ∃ q, x.revalUnc (exactly cs).env = some q ∧
      ∀ v y I, D v = some y → q.grad v = some I → Rounded.Fin y →
        |Rounded.val y - I.exact| ≤ ((1 + Rounded.u F) ^ (I.depth + I.uses - 1) - 1) * I.mag +
          (1 + Rounded.u F) ^ (I.depth + I.uses - 1) * ((1 + Rounded.η F) ^ I.depth - 1) * I.scale := by
  obtain ⟨q, h1, h2⟩ := C71_derivatives cs hc x D h
  refine ⟨q, h1, fun v y I a b c => ((h2 v).2 y I a b c).trans (le_of_eq ?_)⟩
  simp only [Info.bound]
  ring

theorem RRel.sees_errorComponents {g : NodeId → Grad} {s : RState F} (cs : List (Cmd F)) (hg : RRel g (Unc.after cs) s) (x : Arg F)
    (E : VarId → Option F) (h : sees cs (.errorComponents x) = .dict E) :
    ∃ q, x.revalUnc s.env = some q ∧ ∀ v,
      ((E v).isSome = (q.grad v).isSome) ∧
      ∀ y, E v = some y → Rounded.Fin y →
        |Rounded.val y - abs (q.grad.term s.vars v)| ≤ q.grad.termBound s.vars v := by
  obtain ⟨u, hu, hr⟩ := RRel.read_ok h (by simp) (by simp)
  have hv := hg.mshape.evalUnc hu
  obtain ⟨d, hd, hD⟩ := mapRes_ok hr
  obtain ⟨w', d', a1, a2, a3, a4, a5⟩ := World.derivatives_rounded hg.inv hv
  have hloop := errorLoop_rounded (Unc.after cs).w.vars d' a5
  simp only [World.errorComponents, a1, a2.reads.vars, hloop, Except.ok.injEq] at hd
  subst hd
  simp only [Out.dict.injEq] at hD
  subst hD
  refine ⟨u.rabs g, by rw [hg.evalUnc x, hu]; rfl, fun v => ⟨?_, ?_⟩⟩
  · simp only
    rw [lookup_comps, Option.isSome_map]
    exact (a4 v).isSome
  · intro y hy hf
    simp only at hy
    rw [lookup_comps, Option.map_eq_some_iff] at hy
    obtain ⟨z, hz, rfl⟩ := hy
    have := comp_near hg.inv a5 a4 v (fun z' hz' => by rw [hz] at hz'; cases hz'; exact hf)
    rw [hz] at this
    rw [hg.vars]
    exact this

/-- **C71**, error components. -/
theorem C71_error_components (cs : List (Cmd F)) (hc : ∀ c ∈ cs, c.isCopy = false) (x : Arg F)
    (E : VarId → Option F) (h : sees cs (.errorComponents x) = .dict E) :
    ∃ q, x.revalUnc (exactly cs).env = some q ∧ ∀ v,
      ((E v).isSome = (q.grad v).isSome) ∧
      ∀ y, E v = some y → Rounded.Fin y →
        |Rounded.val y - abs (q.grad.term (exactly cs).vars v)| ≤ q.grad.termBound (exactly cs).vars v := by
  obtain ⟨g, hg⟩ := RRel.after cs hc
  exact RRel.sees_errorComponents cs hg x E h

theorem RRel.sees_stdDev {g : NodeId → Grad} {s : RState F} (cs : List (Cmd F)) (hg : RRel g (Unc.after cs) s) (x : Arg F) (q : RQ F)
    (hq : x.revalUnc s.env = some q) (y : F)
    (h : sees cs (.stdDev x) = .val (.flt y) ∨ sees cs (.s x) = .val (.flt y)) (hf : Rounded.Fin y) :
    |Rounded.val y - q.grad.std s.vars| ≤ q.grad.stdBound s.vars := by
  rw [hg.evalUnc x] at hq
  cases hu : x.evalUnc (Unc.after cs).env with
  | none => rw [hu] at hq; cases hq
  | some u =>
  rw [hu] at hq
  cases hq
  have hv := hg.mshape.evalUnc hu
  rw [hg.vars]
  rcases h with h | h
  · have hx : x.eval (Unc.after cs).env = some (.unc u) := by
      simp only [Arg.evalUnc] at hu
      split at hu
      · rename_i h1; cases hu; exact h1
      · cases hu
    simp only [sees, Machine.step, hx, World.stdDevOf] at h
    refine World.stdDev_rounded hg.inv hv ?_ hf
    generalize (Unc.after cs).w.stdDev u = r at h ⊢
    obtain ⟨w, r⟩ := r
    cases r with
    | error e => cases h
    | ok z => simp only [Out.val.injEq, PyVal.flt.injEq] at h; rw [h]
  · obtain ⟨u', hu', hr⟩ := RRel.read_ok h (by simp) (by simp)
    rw [hu] at hu'
    cases hu'
    obtain ⟨z, hz, e⟩ := mapRes_ok hr
    simp only [Out.val.injEq, PyVal.flt.injEq] at e
    subst e
    exact World.affStdDev_rounded hg.inv hv hz hf

/-- **C71**, standard deviations: `x.std_dev`, for any quantity. -/
theorem C71_std_dev (cs : List (Cmd F)) (hc : ∀ c ∈ cs, c.isCopy = false) (x : Arg F) (q : RQ F)
    (hq : x.revalUnc (exactly cs).env = some q) (y : F)
    (h : sees cs (.stdDev x) = .val (.flt y) ∨ sees cs (.s x) = .val (.flt y)) (hf : Rounded.Fin y) :
    |Rounded.val y - q.grad.std (exactly cs).vars| ≤ q.grad.stdBound (exactly cs).vars := by
  obtain ⟨g, hg⟩ := RRel.after cs hc
  exact RRel.sees_stdDev cs hg x q hq y h hf

/-- **C71**, with copies (`copy.copy`, `copy.deepcopy`, pickling): the same bounds hold after any history
`cs` of commands. The exact state `s` is determined up to the identities of the variables of the
copies. -/
theorem C71_copies (cs : List (Cmd F)) :
    ∃ s, ExactlyRuns cs s ∧
      (∀ (x : Arg F) (D : VarId → Option F), sees cs (.derivatives x) = .dict D →
        ∃ q, x.revalUnc s.env = some q ∧ ∀ v, ((D v).isSome = (q.grad v).isSome) ∧
          ∀ y I, D v = some y → q.grad v = some I → Rounded.Fin y →
            |Rounded.val y - I.exact| ≤ I.bound F) ∧
      (∀ (x : Arg F) (E : VarId → Option F), sees cs (.errorComponents x) = .dict E →
        ∃ q, x.revalUnc s.env = some q ∧ ∀ v, ((E v).isSome = (q.grad v).isSome) ∧
          ∀ y, E v = some y → Rounded.Fin y →
            |Rounded.val y - abs (q.grad.term s.vars v)| ≤ q.grad.termBound s.vars v) ∧
      (∀ (x : Arg F) (q : RQ F) (y : F), x.revalUnc s.env = some q →
        (sees cs (.stdDev x) = .val (.flt y) ∨ sees cs (.s x) = .val (.flt y)) → Rounded.Fin y →
          |Rounded.val y - q.grad.std s.vars| ≤ q.grad.stdBound s.vars) := by
  obtain ⟨g, s, hg, hs⟩ := RRel.afterAll cs
  exact ⟨s, hs, fun x D h => RRel.sees_derivatives cs hg x D h,
    fun x E h => RRel.sees_errorComponents cs hg x E h,
    fun x q y hq h hf => RRel.sees_stdDev cs hg x q hq y h hf⟩

omit [Halts F] in
/-- Without copies, the exact state is the one of the other theorems. -/
theorem C71_copies_none (cs : List (Cmd F)) (hc : ∀ c ∈ cs, c.isCopy = false) (s : RState F)
    (h : ExactlyRuns cs s) : s = exactly cs := h.eq hc

theorem exactly_read (s : RState F) (c : Cmd F) (h : c.isRead = true) : s.step c = s := by
  cases c <;> first | rfl | cases h

theorem exactly_effects (cs as bs : List (Cmd F)) (hab : effects as = effects bs) :
    exactly (cs ++ as) = exactly (cs ++ bs) := by
  have key : ∀ (l : List (Cmd F)) (s : RState F), l.foldl RState.step s = (effects l).foldl RState.step s := by
    intro l
    induction l with
    | nil => intro s; rfl
    | cons c l ih =>
      intro s
      simp only [effects, List.filter] at ih ⊢
      by_cases hr : c.isRead = true
      · simp only [hr, Bool.not_true, List.foldl_cons, exactly_read s c hr]
        exact ih s
      · simp only [Bool.not_eq_true] at hr
        simp only [hr, Bool.not_false, List.foldl_cons]
        exact ih _
  simp only [exactly, List.foldl_append]
  rw [key as, key bs, hab]

/-- **C71** and C03: with rounding, reading can change the derivatives that are read later (see
`C71_fails_reads_exactly`), but only within the rounding errors: two histories that differ only by
their reading commands give derivatives that differ by at most twice the bound. -/
theorem C71_reads (cs as bs : List (Cmd F)) (hab : effects as = effects bs)
    (hca : ∀ c ∈ cs ++ as, c.isCopy = false) (hcb : ∀ c ∈ cs ++ bs, c.isCopy = false) (x : Arg F)
    (D E : VarId → Option F) (hD : sees (cs ++ as) (.derivatives x) = .dict D)
    (hE : sees (cs ++ bs) (.derivatives x) = .dict E) (v : VarId) :
    (D v).isSome = (E v).isSome ∧
      ∀ y z, D v = some y → E v = some z → Rounded.Fin y → Rounded.Fin z →
        ∃ q I, x.revalUnc (exactly (cs ++ as)).env = some q ∧ q.grad v = some I ∧
          |Rounded.val y - Rounded.val z| ≤ 2 * I.bound F := by
  obtain ⟨q, h1, h2⟩ := C71_derivatives (cs ++ as) hca x D hD
  obtain ⟨q', h3, h4⟩ := C71_derivatives (cs ++ bs) hcb x E hE
  rw [← exactly_effects cs as bs hab, h1] at h3
  cases h3
  refine ⟨(h2 v).1.trans (h4 v).1.symm, fun y z hy hz fy fz => ?_⟩
  have hs := (h2 v).1
  rw [hy] at hs
  obtain ⟨I, hI⟩ := Option.isSome_iff_exists.mp hs.symm
  refine ⟨q, I, h1, hI, ?_⟩
  have b1 := (h2 v).2 y I hy hI fy
  have b2 := (h4 v).2 z I hz hI fz
  have e : Rounded.val y - Rounded.val z = (Rounded.val y - I.exact) - (Rounded.val z - I.exact) := by ring
  rw [e]
  refine (abs_sub _ _).trans ?_
  linarith

end

/-- 0.1, 0.2 and 0.3, as doubles. -/
def exTenth : B64 := .fin (3602879701896397 * 2 ^ 1019)
def exFifth : B64 := .fin (3602879701896397 * 2 ^ 1020)
def exThreeTenths : B64 := .fin (5404319552844595 * 2 ^ 1020)

/-- `x = ufloat(1, 0.1); y = 0.2 * (0.1 * x)` -/
def exC71 : List (Cmd B64) :=
  [.ufloat (.fin (2 ^ 1074)) exTenth none,
   .binop .mul (.const (.flt exTenth)) (.ref 0),
   .binop .mul (.const (.flt exFifth)) (.ref 1)]

/-- `z = 0.3 * y` -/
def exC71z : Cmd B64 := .binop .mul (.const (.flt exThreeTenths)) (.ref 2)

/-- The first item of a dictionary. -/
def Out.first : Out B64 → Option B64
  | .dict D => D 0
  | _ => none

theorem Out.first_some {o : Out B64} {y : B64} (h : o.first = some y) : ∃ D, o = .dict D ∧ D 0 = some y := by
  cases o <;> first | exact ⟨_, rfl, h⟩ | cases h

/-- With rounding, reading `y.derivatives` changes the value of `z.derivatives` that is read later
(`0.3 * (0.2 * 0.1)` instead of `(0.3 * 0.2) * 0.1`): the exact form of C03 is false for floats. -/
theorem C71_fails_reads_exactly : ∃ (cs as bs : List (Cmd B64)) (x : Arg B64) (D E : VarId → Option B64)
    (v : VarId) (y z : B64), effects as = effects bs ∧
      sees (cs ++ as) (.derivatives x) = .dict D ∧ sees (cs ++ bs) (.derivatives x) = .dict E ∧
      D v = some y ∧ E v = some z ∧ y ≠ z := by
  have h : ∃ y z, (sees (exC71 ++ [exC71z]) (.derivatives (.ref 3))).first = some y ∧
      (sees (exC71 ++ [.derivatives (.ref 2), exC71z]) (.derivatives (.ref 3))).first = some z ∧ y ≠ z := by
    refine ⟨((sees (exC71 ++ [exC71z]) (.derivatives (.ref 3))).first).get (by decide +kernel),
      ((sees (exC71 ++ [.derivatives (.ref 2), exC71z]) (.derivatives (.ref 3))).first).get
        (by decide +kernel), by simp, by simp, by decide +kernel⟩
  obtain ⟨y, z, h1, h2, h3⟩ := h
  obtain ⟨D, h4, h5⟩ := Out.first_some h1
  obtain ⟨E, h6, h7⟩ := Out.first_some h2
  exact ⟨exC71, [exC71z], [.derivatives (.ref 2), exC71z], .ref 3, D, E, 0, y, z, rfl, h4, h6, h5, h7, h3⟩

/-- A number, finite and not zero. -/
def B64.isNumber : Option B64 → Bool
  | some (.fin m) => m != 0
  | _ => false

theorem B64.isNumber_fin {o : Option B64} (h : B64.isNumber o = true) :
    ∃ y, o = some y ∧ Rounded.Fin y ∧ y ≠ 0 := by
  cases o with
  | none => cases h
  | some y =>
    cases y with
    | fin m =>
      refine ⟨_, rfl, trivial, ?_⟩
      intro h0
      have h0' : B64.fin m = .fin 0 := h0
      cases h0'
      cases h
    | nan => cases h
    | inf b => cases h

def Out.float : Out B64 → Option B64
  | .val (.flt y) => some y
  | _ => none

theorem Out.float_some {o : Out B64} {y : B64} (h : o.float = some y) : o = .val (.flt y) := by
  cases o with
  | val v =>
    cases v <;> first | (simp only [Out.float, Option.some.injEq] at h; rw [h]) | cases h
  | _ => cases h

theorem exC71_no_copy : ∀ c ∈ exC71, c.isCopy = false := by
  intro c hc
  simp only [exC71, List.mem_cons, List.not_mem_nil, or_false] at hc
  rcases hc with rfl | rfl | rfl <;> rfl

/-- The hypotheses are satisfied: derivative, error component and standard deviation that are finite and
not zero. -/
example : (∀ c ∈ exC71, c.isCopy = false) ∧
    (∃ D y, sees exC71 (.derivatives (.ref 2)) = .dict D ∧ D 0 = some y ∧ Rounded.Fin y ∧ y ≠ 0) ∧
    (∃ E y, sees exC71 (.errorComponents (.ref 2)) = .dict E ∧ E 0 = some y ∧ Rounded.Fin y ∧ y ≠ 0) ∧
    (∃ q y, (Arg.ref 2).revalUnc (exactly exC71).env = some q ∧
      sees exC71 (.stdDev (.ref 2)) = .val (.flt y) ∧ Rounded.Fin y ∧ y ≠ 0) := by
  refine ⟨exC71_no_copy, ?_, ?_, ?_⟩
  · obtain ⟨y, h1, h2, h3⟩ := B64.isNumber_fin
      (o := (sees exC71 (.derivatives (.ref 2))).first) (by decide +kernel)
    obtain ⟨D, h4, h5⟩ := Out.first_some h1
    exact ⟨D, _, h4, h5, h2, h3⟩
  · obtain ⟨y, h1, h2, h3⟩ := B64.isNumber_fin
      (o := (sees exC71 (.errorComponents (.ref 2))).first) (by decide +kernel)
    obtain ⟨D, h4, h5⟩ := Out.first_some h1
    exact ⟨D, _, h4, h5, h2, h3⟩
  · obtain ⟨y, h1, h2, h3⟩ := B64.isNumber_fin
      (o := (sees exC71 (.stdDev (.ref 2))).float) (by decide +kernel)
    obtain ⟨z, h4, h5, -⟩ := B64.isNumber_fin
      (o := (sees exC71 (.derivatives (.ref 2))).first) (by decide +kernel)
    obtain ⟨D, h6, h7⟩ := Out.first_some h4
    obtain ⟨q, hq, -⟩ := C71_derivatives exC71 exC71_no_copy _ D h6
    exact ⟨q, y, hq, Out.float_some h1, h2, h3⟩

/-- `C71_copies` applies to copies: the derivative of a copy of `y` with respect to the copy of `x`
(variable number 1) is finite and not zero, and there is no derivative with respect to `x`. -/
example : ∃ D y, sees (exC71 ++ [.deepcopy (.ref 2)]) (.derivatives (.ref 3)) = .dict D ∧ D 0 = none ∧
    D 1 = some y ∧ Rounded.Fin y ∧ y ≠ 0 := by
  have h : ∀ o : Out B64, (match o with | .dict D => (D 0).isNone && B64.isNumber (D 1) | _ => false) = true →
      ∃ D y, o = .dict D ∧ D 0 = none ∧ D 1 = some y ∧ Rounded.Fin y ∧ y ≠ 0 := by
    intro o ho
    cases o with
    | dict D =>
      simp only [Bool.and_eq_true, Option.isNone_iff_eq_none] at ho
      obtain ⟨y, h1, h2, h3⟩ := B64.isNumber_fin ho.2
      exact ⟨D, y, rfl, ho.1, h1, h2, h3⟩
    | _ => cases ho
  exact h _ (by decide +kernel)

set_option maxRecDepth 20000 in
/-- The exact derivative of the example and the numbers that appear in its bound. -/
example : ∃ q I, (Arg.ref 2).revalUnc (exactly exC71).env = some q ∧ q.grad 0 = some I ∧
    I.exact = Rounded.val exFifth * (Rounded.val exTenth * 1) ∧ I.depth = 2 ∧ I.uses = 1 :=
  ⟨_, _, rfl, rfl, rfl, rfl, rfl⟩

/-- The hypotheses of `C71_reads` are satisfied. -/
example : effects [exC71z] = effects [.derivatives (.ref 2), exC71z] ∧
    (∀ c ∈ exC71 ++ [exC71z], c.isCopy = false) ∧
    (∀ c ∈ exC71 ++ [.derivatives (.ref 2), exC71z], c.isCopy = false) := by
  refine ⟨rfl, ?_, ?_⟩ <;> intro c hc <;>
    simp only [exC71, exC71z, List.cons_append, List.nil_append, List.mem_cons, List.not_mem_nil,
      or_false] at hc
  · rcases hc with rfl | rfl | rfl | rfl <;> rfl
  · rcases hc with rfl | rfl | rfl | rfl | rfl <;> rfl

end Unc
