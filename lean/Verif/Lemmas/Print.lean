import Verif.Spec.Print
import Verif.Lemmas.Sees
import Verif.Lemmas.OpSpec
import Verif.Lemmas.ParseGeneric
import Verif.Spec.Plain

/-
Programs that print and parse are like programs that read standard deviations and create variables.
-/

set_option autoImplicit false

namespace Unc

section
variable {F : Type} [PyMath F] [PyText F]

/-- Commands with the same effect on the state. -/
def PCmd.plain : PCmd F → List (Cmd F)
  | .run c => [c]
  | .format x spec => if (parseSpec spec).isSome then [.stdDev x] else []
  | .repr x => [.stdDev x]
  | .fromstr s tag =>
    match strToNumberWithUncert (F := F) (strip s) with
    | .error _ => [.unop .neg (.const .notImpl)]
    | .ok (n, u) => [.ufloat n u tag]

theorem eval_of_evalUnc {env : List (Option (Val F))} {x : Arg F} {u : UF F} (h : x.evalUnc env = some u) :
    x.eval env = some (.unc u) := by
  unfold Arg.evalUnc at h
  split at h
  · rename_i hx
    rw [hx, Option.some.inj h]
  · cases h

theorem evalUnc_none {env : List (Option (Val F))} {x : Arg F} (h : x.evalUnc env = none) :
    x.eval env = none ∨ ∃ p, x.eval env = some (.plain p) := by
  unfold Arg.evalUnc at h
  split at h
  · cases h
  · rename_i hx
    cases hv : x.eval env with
    | none => exact .inl rfl
    | some v =>
      cases v with
      | unc u => exact absurd hv (hx u)
      | plain p => exact .inr ⟨p, rfl⟩

theorem step_stdDev_unc {m : Machine F} {x : Arg F} {u : UF F} (h : x.evalUnc m.env = some u) :
    m.step (.stdDev x) = (⟨(m.w.stdDev u).1, m.env⟩,
      match (m.w.stdDev u).2 with | .error e => .err e | .ok s => .val (.flt s)) := by
  simp only [Machine.step, eval_of_evalUnc h, World.stdDevOf]
  split <;> rename_i hw <;> rw [hw]

theorem step_stdDev_other {m : Machine F} {x : Arg F} (h : x.evalUnc m.env = none) :
    (m.step (.stdDev x)).1 = m := by
  rcases evalUnc_none h with h | ⟨p, h⟩
  · simp [Machine.step, h, Machine.invalid]
  · simp [Machine.step, h, World.stdDevOf]

theorem World.format_state (io : TextIO F) (w : World F) (u : UF F) (spec : Str) :
    (w.format io u spec).1 = if (parseSpec spec).isSome then (w.stdDev u).1 else w := by
  unfold World.format
  cases parseSpec spec with
  | none => rfl
  | some p =>
    simp only [Option.isSome_some, if_true]
    split <;> rename_i hw <;> rw [hw]

theorem World.repr_state (io : TextIO F) (w : World F) (u : UF F) :
    (w.repr io u).1 = (w.stdDev u).1 := by
  unfold World.repr
  split
  · rename_i hw; rw [hw]
  · rename_i hw
    rw [hw]
    dsimp only
    split
    · rfl
    · split
      · rfl
      · split <;> rfl

theorem pstep_state (io : TextIO F) (m : Machine F) (c : PCmd F) : (m.pstep io c).1 = (m.run c.plain).1 := by
  cases c with
  | run c => rfl
  | format x spec =>
    simp only [Machine.pstep, Machine.print, PCmd.plain]
    cases hx : x.evalUnc m.env with
    | none =>
      by_cases hp : (parseSpec spec).isSome = true
      · simp only [hp, if_true, Machine.run, step_stdDev_other hx]
        simp [Machine.invalid]
      · simp [hp, Machine.run, Machine.invalid]
    | some u =>
      simp only [World.format_state]
      split
      · simp only [Machine.run, step_stdDev_unc hx]
      · rfl
  | repr x =>
    simp only [Machine.pstep, Machine.print, PCmd.plain]
    cases hx : x.evalUnc m.env with
    | none =>
      simp only [Machine.run, step_stdDev_other hx]
      simp [Machine.invalid]
    | some u => simp only [World.repr_state, Machine.run, step_stdDev_unc hx]
  | fromstr s tag =>
    simp only [Machine.pstep, PCmd.plain]
    cases strToNumberWithUncert (F := F) (strip s) with
    | error e => simp [Machine.run, Machine.step, Arg.evalUnc, Arg.eval, Machine.invalid]
    | ok p => rfl

theorem prun_state (io : TextIO F) (m : Machine F) (cs : List (PCmd F)) :
    m.prun io cs = (m.run (cs.flatMap PCmd.plain)).1 := by
  induction cs generalizing m with
  | nil => rfl
  | cons c cs ih =>
    rw [List.flatMap_cons, Machine.run_append]
    simp only [Machine.prun, ih, pstep_state]

theorem pafter_eq (io : TextIO F) (cs : List (PCmd F)) : pafter io cs = after (cs.flatMap PCmd.plain) := prun_state io _ cs

theorem psees_run (io : TextIO F) (cs : List (PCmd F)) (c : Cmd F) :
    psees io cs (.run c) = .out (sees (cs.flatMap PCmd.plain) c) := by
  rw [psees, pafter_eq]
  rfl

theorem pnext_eq (io : TextIO F) (cs : List (PCmd F)) : pnext io cs = next (cs.flatMap PCmd.plain) := by
  rw [pnext, pafter_eq]
  rfl

/-- `format()` of a number with uncertainty. -/
theorem psees_format (io : TextIO F) (cs : List (PCmd F)) (x : Arg F) (spec : Str) :
    psees io cs (.format x spec) =
      match sees (cs.flatMap PCmd.plain) (.s x) with
      | .invalid => .out .invalid
      | _ =>
        match parseSpec spec with
        | none => .out (.err .valueError)
        | some _ =>
          match sees (cs.flatMap PCmd.plain) (.stdDev x), sees (cs.flatMap PCmd.plain) (.nominal x) with
          | .val (.flt s), .val (.flt n) => .ofText (io.ops.formatU (io.num n) (io.num s) spec)
          | .err e, _ => .out (.err e)
          | _, _ => .out .invalid := by
  rw [psees, pafter_eq]
  simp only [sees]
  generalize after (cs.flatMap PCmd.plain) = m
  simp only [Machine.pstep, Machine.print]
  cases hx : x.evalUnc m.env with
  | none => simp [Machine.step, Machine.read, hx, Machine.invalid]
  | some u =>
    have h1 : ∀ o, (m.step (.s x)).2 = o → o ≠ .invalid := by
      rintro _ rfl
      simp only [Machine.step, Machine.read, hx]
      unfold mapRes
      rcases m.w.affStdDev u with ⟨w, e | s⟩ <;> simp [Except.map]
    have h2 : (m.step (.nominal x)).2 = .val (.flt u.nom) := by
      simp [Machine.step, eval_of_evalUnc hx, Val.nominal]
    rw [h2, step_stdDev_unc hx]
    have h3 := h1 _ rfl
    revert h3
    generalize (m.step (.s x)).2 = o
    intro h3
    have key : (POut.ofText (m.w.format io u spec).2 : POut F) =
        match parseSpec spec with
        | none => .out (.err .valueError)
        | some _ =>
          match (match (m.w.stdDev u).2 with | .error e => Out.err e | .ok s => .val (.flt s)), Out.val (.flt u.nom) with
          | .val (.flt s), .val (.flt n) => .ofText (io.ops.formatU (io.num n) (io.num s) spec)
          | .err e, _ => POut.out (.err e)
          | _, _ => .out .invalid := by
      unfold World.format
      cases parseSpec spec with
      | none => rfl
      | some p =>
        rcases m.w.stdDev u with ⟨w, e | s⟩ <;> rfl
    cases o <;> first | exact absurd rfl h3 | exact key

/-- `repr()` of a number with uncertainty. -/
theorem psees_repr (io : TextIO F) (cs : List (PCmd F)) (x : Arg F) :
    psees io cs (.repr x) =
      match sees (cs.flatMap PCmd.plain) (.s x) with
      | .invalid => .out .invalid
      | _ =>
        match sees (cs.flatMap PCmd.plain) (.stdDev x), sees (cs.flatMap PCmd.plain) (.nominal x) with
        | .val (.flt s), .val (.flt n) =>
          match sees (cs.flatMap PCmd.plain) (.tag x) with
          | .tag (some t) => .text (tagText t (reprU io.repr PyFloat.truthy n s))
          | _ => .text (reprU io.repr PyFloat.truthy n s)
        | .err e, _ => .out (.err e)
        | _, _ => .out .invalid := by
  rw [psees, pafter_eq]
  simp only [sees]
  generalize after (cs.flatMap PCmd.plain) = m
  simp only [Machine.pstep, Machine.print]
  cases hx : x.evalUnc m.env with
  | none => simp [Machine.step, Machine.read, hx, Machine.invalid]
  | some u =>
    have h1 : ∀ o, (m.step (.s x)).2 = o → o ≠ .invalid := by
      rintro _ rfl
      simp only [Machine.step, Machine.read, hx]
      unfold mapRes
      rcases m.w.affStdDev u with ⟨w, e | s⟩ <;> simp [Except.map]
    have h2 : (m.step (.nominal x)).2 = .val (.flt u.nom) := by
      simp [Machine.step, eval_of_evalUnc hx, Val.nominal]
    have h4 : (m.step (.tag x)).2 = match (m.w.tag u).2 with | .error e => .err e | .ok t => .tag t := by
      simp only [Machine.step, Machine.read, hx]
      unfold mapRes
      rcases m.w.tag u with ⟨w, e | s⟩ <;> rfl
    rw [h2, step_stdDev_unc hx, h4]
    have h3 := h1 _ rfl
    revert h3
    generalize (m.step (.s x)).2 = o
    intro h3
    have key : (POut.ofText (m.w.repr io u).2 : POut F) =
        match (match (m.w.stdDev u).2 with | .error e => Out.err e | .ok s => .val (.flt s)), Out.val (.flt u.nom) with
        | .val (.flt s), .val (.flt n) =>
          match (match (m.w.tag u).2 with | .error e => Out.err e | .ok t => .tag t : Out F) with
          | .tag (some t) => .text (tagText t (reprU io.repr PyFloat.truthy n s))
          | _ => .text (reprU io.repr PyFloat.truthy n s)
        | .err e, _ => POut.out (.err e)
        | _, _ => .out .invalid := by
      unfold World.repr World.stdDev World.tag
      cases u.var with
      | none => rcases m.w.affStdDev u with ⟨w, e | s⟩ <;> rfl
      | some v =>
        dsimp only
        cases hv : m.w.vars[v]? with
        | none => rfl
        | some cell =>
          simp only [hv]
          cases cell.tag <;> rfl
    cases o <;> first | exact absurd rfl h3 | exact key

theorem unc_of_derivatives {cs : List (Cmd F)} {x : Arg F} {D : VarId → Option F}
    (h : sees cs (.derivatives x) = .dict D) : sees cs (.s x) ≠ .invalid := by
  simp only [sees] at h ⊢
  generalize after cs = m at h ⊢
  simp only [Machine.step, Machine.read] at h ⊢
  cases hx : x.evalUnc m.env with
  | none => rw [hx] at h; cases h
  | some u =>
    dsimp only [mapRes]
    generalize m.w.affStdDev u = r
    obtain ⟨w, e | s⟩ := r <;> simp [Except.map]

theorem effects_plain (cs : List (PCmd F)) :
    effects (cs.flatMap PCmd.plain) = effects ((peffects cs).flatMap PCmd.plain) := by
  have happ : ∀ a b : List (Cmd F), effects (a ++ b) = effects a ++ effects b := fun a b => List.filter_append ..
  induction cs with
  | nil => rfl
  | cons c cs ih =>
    by_cases hc : c.isRead = true
    · have h1 : effects c.plain = [] := by
        cases c with
        | run c => simpa [PCmd.plain, effects, PCmd.isRead] using hc
        | format x spec => simp only [PCmd.plain]; split <;> rfl
        | repr x => rfl
        | fromstr s t => cases hc
      rw [show peffects (c :: cs) = peffects cs by simp [peffects, hc], List.flatMap_cons, happ, h1, List.nil_append, ih]
    · rw [show peffects (c :: cs) = c :: peffects cs by simp [peffects, hc], List.flatMap_cons, List.flatMap_cons, happ, happ, ih]

theorem plain_isCopy {c : PCmd F} (h : c.isCopy = false) : ∀ c' ∈ c.plain, c'.isCopy = false := by
  intro c' hc'
  cases c with
  | run c =>
    rw [PCmd.plain, List.mem_singleton] at hc'
    subst hc'
    cases c' <;> first | rfl | cases h
  | format x spec =>
    simp only [PCmd.plain] at hc'
    split at hc'
    · rw [List.mem_singleton.1 hc']; rfl
    · cases hc'
  | repr x => rw [PCmd.plain, List.mem_singleton] at hc'; rw [hc']; rfl
  | fromstr s t =>
    simp only [PCmd.plain] at hc'
    split at hc' <;> rw [List.mem_singleton.1 hc'] <;> rfl

theorem plain_isVariable {c : PCmd F} (h : ∀ x v, c ≠ .run (.variable x v)) : ∀ c' ∈ c.plain, c'.isVariable = false := by
  intro c' hc'
  cases c with
  | run c =>
    rw [PCmd.plain, List.mem_singleton] at hc'
    subst hc'
    cases c' <;> first | rfl | exact absurd rfl (h _ _)
  | format x spec =>
    simp only [PCmd.plain] at hc'
    split at hc'
    · rw [List.mem_singleton.1 hc']; rfl
    · cases hc'
  | repr x => rw [PCmd.plain, List.mem_singleton] at hc'; rw [hc']; rfl
  | fromstr s t =>
    simp only [PCmd.plain] at hc'
    split at hc' <;> rw [List.mem_singleton.1 hc'] <;> rfl

theorem Out.Same.cases {ρ : List (VarId × VarId)} {o o' : Out F} (h : Out.Same ρ o o') :
    o = o' ∨ ∃ d e, o = .dict d ∧ o' = .dict e := by
  cases o <;> cases o' <;> first | exact .inl h | exact .inr ⟨_, _, rfl, rfl⟩

end

end Unc
