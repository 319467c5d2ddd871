import Verif.Lemmas.Iso

/-
Histories that are the same up to a renaming of the variables; values are never rebound.
-/

namespace Unc

set_option linter.unusedSectionVars false
set_option autoImplicit false

variable {F : Type} [PyMath F] [ExactLin F]

theorem SpecStep.ren {ρ : List (VarId × VarId)} {s t s' t' : SState F} {o o' : Out F} (h : Iso ρ s t)
    {c : Cmd F} (hv : c.isVariable = false) (h1 : SpecStep s c s' o) (h2 : SpecStep t c t' o') :
    ∃ ρ', RenGrows t.vars.length ρ ρ' ∧ Iso ρ' s' t' ∧ Out.Same ρ' o o' := by
  have hinv : ∀ (n : Nat), (s', o) = s.invalid n → (t', o') = t.invalid n →
      ∃ ρ', RenGrows t.vars.length ρ ρ' ∧ Iso ρ' s' t' ∧ Out.Same ρ' o o' := by
    intro n a b
    have := h.invalid n (m := t.vars.length)
    rw [← a, ← b] at this
    exact this
  by_cases hc : c.isCopy = false
  · have e1 := specStep_eq hc h1
    have e2 := specStep_eq hc h2
    have := SState.step_ren h c hc hv
    rw [← e1, ← e2] at this
    exact this
  · cases c <;> simp only [Cmd.isCopy, not_true_eq_false] at hc
    case copy x =>
      simp only [SpecStep] at h1 h2
      have ha := h.sevalUnc x
      revert h1 h2 ha
      generalize x.sevalUnc s.env = a
      generalize x.sevalUnc t.env = b
      intro h1 h2 ha
      cases ha with
      | none => exact hinv _ h1 h2
      | @some q q' hq =>
        simp only at h1 h2
        obtain ⟨rfl, h1⟩ := h1
        obtain ⟨rfl, h2⟩ := h2
        cases hqv : q.var with
        | none =>
          simp only [hqv] at h1
          simp only [hq.novar hqv] at h2
          subst h1
          subst h2
          exact ⟨ρ, .refl _ _, h.append (.cons (.some (.unc hq)) .nil), rfl⟩
        | some v =>
          obtain ⟨v', e, -⟩ := hq.var v hqv
          simp only [hqv] at h1
          simp only [e] at h2
          obtain ⟨ρ', r1, r2⟩ := SpecCopied.ren h (.cons hq .nil) h1 h2
          exact ⟨ρ', r1, r2, rfl⟩
    case deepcopy x =>
      simp only [SpecStep] at h1 h2
      have ha := h.sevalUnc x
      revert h1 h2 ha
      generalize x.sevalUnc s.env = a
      generalize x.sevalUnc t.env = b
      intro h1 h2 ha
      cases ha with
      | none => exact hinv _ h1 h2
      | @some q q' hq =>
        simp only at h1 h2
        obtain ⟨rfl, h1⟩ := h1
        obtain ⟨rfl, h2⟩ := h2
        obtain ⟨ρ', r1, r2⟩ := SpecCopied.ren h (.cons hq .nil) h1 h2
        exact ⟨ρ', r1, r2, rfl⟩
    case pickle xs =>
      simp only [SpecStep] at h1 h2
      have ha := evalArgs_rel h.sevalUnc xs
      revert h1 h2 ha
      generalize evalArgs (Arg.sevalUnc s.env) xs = a
      generalize evalArgs (Arg.sevalUnc t.env) xs = b
      intro h1 h2 ha
      cases ha with
      | none => exact hinv _ h1 h2
      | @some q q' hq =>
        simp only at h1 h2
        obtain ⟨rfl, h1⟩ := h1
        obtain ⟨rfl, h2⟩ := h2
        obtain ⟨ρ', r1, r2⟩ := SpecCopied.ren h hq h1 h2
        exact ⟨ρ', r1, r2, rfl⟩

theorem SpecRun.ren {ρ : List (VarId × VarId)} {s t s' t' : SState F} {os os' : List (Out F)}
    (h : Iso ρ s t) {cs : List (Cmd F)} (hv : ∀ c ∈ cs, c.isVariable = false) (h1 : SpecRun s cs s' os)
    (h2 : SpecRun t cs t' os') : ∃ ρ', (∀ p, p ∈ ρ → p ∈ ρ') ∧ Iso ρ' s' t' := by
  induction cs generalizing s t os os' ρ with
  | nil =>
    cases h1
    cases h2
    exact ⟨ρ, fun _ h => h, h⟩
  | cons c cs ih =>
    cases h1 with
    | cons a1 b1 =>
      cases h2 with
      | cons a2 b2 =>
        obtain ⟨ρ1, r1, r2, -⟩ := SpecStep.ren h (hv c (by simp)) a1 a2
        obtain ⟨ρ2, q1, q2⟩ := ih r2 (fun c hc => hv c (by simp [hc])) b1 b2
        exact ⟨ρ2, fun p hp => q1 p (r1.sub p hp), q2⟩

/-- The specification is deterministic for commands other than copies. -/
theorem SpecRun.det {s s' t' : SState F} {os os' : List (Out F)} {cs : List (Cmd F)}
    (hc : ∀ c ∈ cs, c.isCopy = false) (h1 : SpecRun s cs s' os) (h2 : SpecRun s cs t' os') :
    s' = t' := by
  induction cs generalizing s os os' with
  | nil =>
    cases h1
    cases h2
    rfl
  | cons c cs ih =>
    cases h1 with
    | cons a1 b1 =>
      cases h2 with
      | cons a2 b2 =>
        have e := (specStep_eq (hc c (by simp)) a1).trans (specStep_eq (hc c (by simp)) a2).symm
        simp only [Prod.mk.injEq] at e
        rw [e.1] at b1
        exact ih (fun c h => hc c (by simp [h])) b1 b2

/-- The state of the specification only depends on the commands that do more than reading. -/
theorem Reaches.effects {cs : List (Cmd F)} {s : SState F} (h : Reaches cs s) (as : List (Cmd F)) :
    ∃ s' os, Reaches (cs ++ as) s' ∧ SpecRun s (effects as) s' os := by
  induction as generalizing cs s with
  | nil => exact ⟨s, [], by simpa using h, .nil s⟩
  | cons c as ih =>
    have e : cs ++ c :: as = (cs ++ [c]) ++ as := by simp
    cases hr : c.isRead with
    | true =>
      obtain ⟨s', os, h1, h2⟩ := ih (h.read hr).2
      refine ⟨s', os, by rw [e]; exact h1, ?_⟩
      simpa [Unc.effects, hr] using h2
    | false =>
      obtain ⟨s1, a1, a2⟩ := h.step c
      obtain ⟨s', os, h1, h2⟩ := ih a2
      refine ⟨s', sees cs c :: os, by rw [e]; exact h1, ?_⟩
      have : Unc.effects (c :: as) = c :: Unc.effects as := by simp [Unc.effects, hr]
      rw [this]
      exact .cons a1 h2

/-- The identity. -/
def idRen (n : Nat) : List (VarId × VarId) := (List.range n).map (fun v => (v, v))

theorem mem_idRen {n : Nat} {v v' : VarId} : (v, v') ∈ idRen n ↔ v = v' ∧ v < n := by
  simp only [idRen, List.mem_map, List.mem_range, Prod.mk.injEq]
  constructor
  · rintro ⟨u, h1, rfl, rfl⟩; exact ⟨rfl, h1⟩
  · rintro ⟨rfl, h⟩; exact ⟨v, h, rfl, rfl⟩

theorem Iso.refl {s : SState F} (h : s.WF) : Iso (idRen s.vars.length) s s := by
  have hone : OneToOne (idRen s.vars.length) := by
    refine ⟨?_, ?_⟩
    · intro v a b ha hb
      rw [mem_idRen] at ha hb
      exact ha.1.symm.trans hb.1
    · intro v a b ha hb
      rw [mem_idRen] at ha hb
      exact ha.1.trans hb.1.symm
  have hq : ∀ q, some (.unc q) ∈ s.env → SQRel (idRen s.vars.length) q q := by
    intro q hq
    refine ⟨rfl, ⟨?_, ?_, ?_⟩, ?_, fun h => h⟩
    · intro v v' hv
      rw [(mem_idRen.mp hv).1]
    · intro v hv
      obtain ⟨x, hx⟩ := Option.ne_none_iff_exists'.mp hv
      exact ⟨v, mem_idRen.mpr ⟨rfl, h.keys q hq v x hx⟩⟩
    · intro v hv
      obtain ⟨x, hx⟩ := Option.ne_none_iff_exists'.mp hv
      exact ⟨v, mem_idRen.mpr ⟨rfl, h.keys q hq v x hx⟩⟩
    · intro v hv
      obtain ⟨-, c, h1, -⟩ := h.var q hq v hv
      exact ⟨v, hv, mem_idRen.mpr ⟨rfl, (List.getElem?_eq_some_iff.mp h1).1⟩⟩
  refine ⟨⟨hone, ?_, ?_⟩, rfl, ?_⟩
  · intro v v' hv
    obtain ⟨rfl, hlt⟩ := mem_idRen.mp hv
    exact ⟨hlt, hlt⟩
  · intro v v' hv
    rw [(mem_idRen.mp hv).1]
  · have : ∀ (l : List (Option (SVal F))), (∀ o ∈ l, o ∈ s.env) →
        List.Forall₂ (OptRel (SValRel (idRen s.vars.length))) l l := by
      intro l hl
      induction l with
      | nil => exact .nil
      | cons o l ih =>
        refine .cons ?_ (ih (fun o ho => hl o (by simp [ho])))
        cases o with
        | none => exact .none
        | some a =>
          cases a with
          | plain v => exact .some (.plain v)
          | unc q => exact .some (.unc (hq q (hl _ (by simp))))
    exact this _ (fun _ h => h)

/-! ### Values are never rebound -/

theorem SState.bind_env (s : SState F) (r : PyRes (SVal F)) : ∃ l, (s.bind r).1.env = s.env ++ l := by
  unfold SState.bind
  split <;> exact ⟨_, rfl⟩

theorem SState.step_env (s : SState F) (c : Cmd F) : ∃ l, (s.step c).1.env = s.env ++ l := by
  have hn : ∃ l, s.env = s.env ++ l := ⟨[], by simp⟩
  by_cases hr : c.isRead = true
  · rw [SState.step_read s hr]; exact hn
  · cases c <;> simp only [Cmd.isRead, not_true_eq_false] at hr <;> simp only [SState.step]
    case ufloat n std tag => split <;> exact ⟨_, rfl⟩
    case affine n items =>
      split
      · exact ⟨_, rfl⟩
      · split <;> exact ⟨_, rfl⟩
    case wrap df => exact hn
    case call f args kwargs =>
      split
      · exact ⟨_, rfl⟩
      · split
        · exact SState.bind_env _ _
        · exact ⟨_, rfl⟩
    case unop op x =>
      split
      · exact ⟨_, rfl⟩
      · exact SState.bind_env _ _
    case binop op x y =>
      split
      · split
        · exact SState.bind_env _ _
        · exact ⟨_, rfl⟩
      · exact ⟨_, rfl⟩
    case modf x =>
      split
      · exact ⟨_, rfl⟩
      · split
        · exact ⟨_, rfl⟩
        · split <;> exact ⟨_, rfl⟩
    case ldexp x i =>
      split
      · exact ⟨_, rfl⟩
      · split
        · exact ⟨_, rfl⟩
        · exact SState.bind_env _ _
    case lcst f args kwargs =>
      split
      · exact SState.bind_env _ _
      · exact ⟨_, rfl⟩
    case copy => exact hn
    case deepcopy => exact hn
    case pickle => exact hn
    case «variable» x v =>
      split
      · exact ⟨_, rfl⟩
      · split <;> exact ⟨_, rfl⟩
    case setStd x std =>
      split
      · exact ⟨_, rfl⟩
      · split
        · exact hn
        · split <;> exact hn

theorem SpecStep.env {s s' : SState F} {c : Cmd F} {o : Out F} (h : SpecStep s c s' o) :
    ∃ l, s'.env = s.env ++ l := by
  by_cases hc : c.isCopy = false
  · have := specStep_eq hc h
    simp only [Prod.ext_iff] at this
    obtain ⟨l, hl⟩ := SState.step_env s c
    exact ⟨l, by rw [this.1, hl]⟩
  · cases c <;> simp only [Cmd.isCopy, not_true_eq_false] at hc
    all_goals simp only [SpecStep] at h
    case copy x =>
      split at h
      · simp only [Prod.ext_iff, SState.invalid] at h
        exact ⟨_, by rw [h.1]⟩
      · obtain ⟨-, h⟩ := h
        split at h
        · exact ⟨_, by rw [h]⟩
        · obtain ⟨ρ, qs, -, -, he⟩ := h
          exact ⟨_, he⟩
    case deepcopy x =>
      split at h
      · simp only [Prod.ext_iff, SState.invalid] at h
        exact ⟨_, by rw [h.1]⟩
      · obtain ⟨-, ρ, qs, -, -, he⟩ := h
        exact ⟨_, he⟩
    case pickle x =>
      split at h
      · simp only [Prod.ext_iff, SState.invalid] at h
        exact ⟨_, by rw [h.1]⟩
      · obtain ⟨-, ρ, qs, -, -, he⟩ := h
        exact ⟨_, he⟩

theorem SpecRun.env {s s' : SState F} {cs : List (Cmd F)} {os : List (Out F)} (h : SpecRun s cs s' os) :
    ∃ l, s'.env = s.env ++ l := by
  induction h with
  | nil => exact ⟨[], by simp⟩
  | cons h _ ih =>
    obtain ⟨l1, h1⟩ := h.env
    obtain ⟨l2, h2⟩ := ih
    exact ⟨l1 ++ l2, by rw [h2, h1, List.append_assoc]⟩

theorem seval_append {env l : List (Option (SVal F))} {x : Arg F} {a : SVal F}
    (h : x.seval env = some a) : x.seval (env ++ l) = some a := by
  cases x with
  | const v => exact h
  | ref k =>
    simp only [Arg.seval] at h ⊢
    by_cases hk : k < env.length
    · rw [List.getElem?_append_left hk]; exact h
    · rw [List.getElem?_eq_none (by omega)] at h; cases h

theorem sevalUnc_append {env l : List (Option (SVal F))} {x : Arg F} {q : SQ F}
    (h : x.sevalUnc env = some q) : x.sevalUnc (env ++ l) = some q := by
  simp only [Arg.sevalUnc] at h
  split at h
  · rename_i q' hx
    cases h
    simp only [Arg.sevalUnc, seval_append hx]
  · cases h

/-- A quantity stays the same quantity in the rest of the history. -/
theorem Reaches.later {cs : List (Cmd F)} {s : SState F} (h : Reaches cs s) (later : List (Cmd F)) :
    ∃ s', Reaches (cs ++ later) s' ∧ ∀ (x : Arg F) (q : SQ F), x.sevalUnc s.env = some q →
      x.sevalUnc s'.env = some q := by
  obtain ⟨s', h1, h2⟩ := h.run later
  obtain ⟨l, hl⟩ := h1.env
  exact ⟨s', h2, fun x q hx => by rw [hl]; exact sevalUnc_append hx⟩

end Unc
