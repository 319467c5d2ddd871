import Verif.Lemmas.Weave

/-
A program that shares an interpreter with others sees what it would see alone.
-/

namespace Unc

set_option linter.unusedSectionVars false
set_option autoImplicit false

variable {F : Type} [PyMath F] [ExactLin F]

/-- Program `i`, alone in state `s`, and all the programs in state `t`; the first `n` values are
common. -/
structure Together (i n : Nat) (names : Nat → Names) (ρ : List (VarId × VarId)) (s t : SState F) :
    Prop where
  view : ∀ j, ∃ u, View (names j) u t
  mine : ∃ u, View (names i) u t ∧ Iso ρ s u
  others : ∀ j, j ≠ i → ∀ (k m : Nat) (q : SQ F) (v : VarId), n ≤ k → (names j).vals[k]? = some m →
    t.env[m]? = some (some (.unc q)) → q.var = some v → (∀ a, (a, v) ∉ ρ) ∧ v < t.vars.length

theorem View.lt {nm : Names} {u t : SState F} (h : View nm u t) {k m : Nat} (hk : nm.vals[k]? = some m) :
    m < t.env.length := by
  have := forall₂_lookup h.env k
  rw [List.getD_eq_getElem?_getD, hk, Option.getD_some] at this
  by_contra hc
  have hlt := List.getElem?_eq_some_iff.1 hk
  obtain ⟨hk', -⟩ := hlt
  rw [List.getElem?_eq_none (by omega)] at this
  have h2 := h.env.length_eq
  have := List.getElem?_eq_none_iff.1 this.symm
  omega

theorem Together.mineStep {i n : Nat} {names : Nat → Names} {ρ : List (VarId × VarId)}
    {s t s' t' : SState F} {o o' : Out F} {c : Cmd F} (h : Together i n names ρ s t)
    (hv : c.isVariable = false) (hs : SpecStep s c s' o)
    (ht : SpecStep t (c.named (names i) t.env.length t.fns.length) t' o') :
    (∃ ρ', (∀ p, p ∈ ρ → p ∈ ρ') ∧ Out.Same ρ' o o' ∧ Together i n
      (Function.update names i ((names i).grow t.env.length t.fns.length c)) ρ' s' t') ∧
    t'.env.length = t.env.length + c.results ∧ t'.fns.length = t.fns.length + c.defs.length := by
  obtain ⟨u, hu, hi⟩ := h.mine
  obtain ⟨u', h1, h2⟩ := ht.named hu
  obtain ⟨ρ', r1, r2, r3⟩ := SpecStep.ren hi hv hs h1
  have hview := hu.step h2
  obtain ⟨-, ⟨-, hd⟩, new, -, hn, hlen⟩ := h2
  refine ⟨⟨ρ', r1.sub, r3, ?_, ?_, ?_⟩, by rw [hn, List.length_append, hlen],
    by rw [hd, List.length_append]⟩
  · intro j
    by_cases e : j = i
    · subst e
      rw [Function.update_self]
      exact ⟨u', hview⟩
    · rw [Function.update_of_ne e]
      obtain ⟨w, hw⟩ := h.view j
      exact ⟨_, hw.other hd hn⟩
  · rw [Function.update_self]
    exact ⟨u', hview, r2⟩
  · intro j hj k m q v hk hm hq hqv
    rw [Function.update_of_ne hj] at hm
    obtain ⟨w, hw⟩ := h.view j
    have hlt := hw.lt hm
    rw [hn, List.getElem?_append_left hlt] at hq
    obtain ⟨a1, a2⟩ := h.others j hj k m q v hk hm hq hqv
    have hvl : t.vars.length ≤ t'.vars.length := (ht.effect (by cases c <;> exact hv)).vars
    refine ⟨fun a ha => ?_, by omega⟩
    rcases r1.fresh _ ha with ha | ha
    · exact a1 a ha
    · rw [hu.vars] at ha
      simp only at ha
      omega

theorem Together.otherStep {i j n : Nat} {names : Nat → Names} {ρ : List (VarId × VarId)}
    {s t t' : SState F} {o' : Out F} {c : Cmd F} (h : Together i n names ρ s t) (hj : j ≠ i)
    (hv : c.isVariable = false) (hc : c.setsBefore n = false)
    (ht : SpecStep t (c.named (names j) t.env.length t.fns.length) t' o') :
    Together i n (Function.update names j ((names j).grow t.env.length t.fns.length c)) ρ s t' ∧
    t'.env.length = t.env.length + c.results ∧ t'.fns.length = t.fns.length + c.defs.length := by
  obtain ⟨w, hw⟩ := h.view j
  obtain ⟨w', -, h2⟩ := ht.named hw
  have hview := hw.step h2
  obtain ⟨-, ⟨-, hd⟩, new, -, hn, hlen⟩ := h2
  have he := ht.effect (by cases c <;> exact hv)
  obtain ⟨u, hu, hi⟩ := h.mine
  refine ⟨⟨?_, ?_, ?_⟩, by rw [hn, List.length_append, hlen], by rw [hd, List.length_append]⟩
  · intro k
    by_cases e : k = j
    · subst e
      rw [Function.update_self]
      exact ⟨w', hview⟩
    · rw [Function.update_of_ne e]
      obtain ⟨w, hw⟩ := h.view k
      exact ⟨_, hw.other hd hn⟩
  · rw [Function.update_of_ne (Ne.symm hj)]
    refine ⟨_, hu.other hd hn, ⟨hi.vars.one, ?_, ?_⟩, hi.fns, hi.env⟩
    · intro v v' hvv
      obtain ⟨a, b⟩ := hi.vars.lt v v' hvv
      rw [hu.vars] at b
      exact ⟨a, lt_of_lt_of_le b he.vars⟩
    · intro v v' hvv
      obtain ⟨a, b⟩ := hi.vars.lt v v' hvv
      rw [hi.vars.eq v v' hvv, hu.vars]
      rw [hu.vars] at b
      rcases he.old v' b with h1 | ⟨x, std, q, h1, h3, h4⟩
      · exact h1.symm
      · exfalso
        cases c <;> simp only [Cmd.named, reduceCtorEq] at h1
        case setStd y std' =>
          simp only [Cmd.setStd.injEq] at h1
          obtain ⟨rfl, rfl⟩ := h1
          cases y with
          | const a => simp [Arg.named, Arg.sevalUnc, Arg.seval] at h3
          | ref k =>
            have hk : n ≤ k := by simpa [Cmd.setsBefore] using hc
            cases hm : (names j).vals[k]? with
            | none =>
              simp only [Arg.named, Arg.sevalUnc, Arg.seval, List.getD_eq_getElem?_getD, hm,
                Option.getD_none, List.getElem?_length, Option.join_none, reduceCtorEq] at h3
            | some m =>
              have hq : t.env[m]? = some (some (.unc q)) := by
                simp only [Arg.named, Arg.sevalUnc, Arg.seval, List.getD_eq_getElem?_getD, hm,
                  Option.getD_some] at h3
                split at h3
                · rename_i q' hq'
                  cases h3
                  exact Option.join_eq_some_iff.1 hq'
                · cases h3
              exact (h.others j hj k m q v' hk hm hq h4).1 v hvv
  · intro j' hj' k m q v hk hm hq hqv
    have hold : ∀ j', j' ≠ i → (names j').vals[k]? = some m → (∀ a, (a, v) ∉ ρ) ∧ v < t'.vars.length := by
      intro j' hj' hm
      obtain ⟨w, hw⟩ := h.view j'
      have hlt := hw.lt hm
      rw [hn, List.getElem?_append_left hlt] at hq
      obtain ⟨a1, a2⟩ := h.others j' hj' k m q v hk hm hq hqv
      exact ⟨a1, lt_of_lt_of_le a2 he.vars⟩
    by_cases e : j' = j
    · subst e
      rw [Function.update_self] at hm
      simp only [Names.grow] at hm
      by_cases hkl : k < (names j').vals.length
      · rw [List.getElem?_append_left hkl] at hm
        exact hold j' hj' hm
      · rw [List.getElem?_append_right (by omega)] at hm
        obtain ⟨new', hn', hnew⟩ := he.env
        have : new' = new := by rw [hn] at hn'; exact (List.append_cancel_left hn').symm
        subst this
        have hm' := List.mem_of_getElem? hm
        rw [List.mem_range'_1] at hm'
        rw [hn, List.getElem?_append_right hm'.1] at hq
        obtain ⟨b1, b2⟩ := hnew q v (List.mem_of_getElem? hq) hqv
        refine ⟨fun a ha => ?_, b2⟩
        have := (hi.vars.lt a v ha).2
        rw [hu.vars] at this
        omega
    · rw [Function.update_of_ne e] at hm
      exact hold j' hj' hm

theorem run_cons_sees (cs : List (Cmd F)) (c : Cmd F) (l : List (Cmd F)) :
    ((after cs).run (c :: l)).2 = sees cs c :: ((after (cs ++ [c])).run l).2 := by
  rw [after_snoc]
  rfl

theorem Together.run {i n : Nat} (w : List (Nat × Cmd F)) :
    ∀ {names : Nat → Names} {ρ : List (VarId × VarId)} {A B : List (Cmd F)} {s t : SState F},
    Together i n names ρ s t → Reaches A s → Reaches B t →
    (∀ p ∈ w, p.2.isVariable = false) → (∀ p ∈ w, p.1 ≠ i → p.2.setsBefore n = false) →
    ∃ ρ', (∀ p, p ∈ ρ → p ∈ ρ') ∧ OneToOne ρ' ∧ List.Forall₂ (Out.Same ρ')
      ((after A).run (commandsOf i w)).2
      (seenBy i w ((after B).run (weave names t.env.length t.fns.length w)).2) := by
  induction w with
  | nil =>
    intro names ρ A B s t h _ _ _ _
    obtain ⟨u, -, hi⟩ := h.mine
    exact ⟨ρ, fun _ h => h, hi.vars.one, .nil⟩
  | cons p w ih =>
    intro names ρ A B s t h hA hB hv hs
    obtain ⟨j, c⟩ := p
    have hvc : c.isVariable = false := hv (j, c) (by simp)
    obtain ⟨t', b1, b2⟩ := hB.step (c.named (names j) t.env.length t.fns.length)
    by_cases e : j = i
    · subst e
      obtain ⟨s', a1, a2⟩ := hA.step c
      obtain ⟨⟨ρ1, r1, r2, r3⟩, l1, l2⟩ := h.mineStep hvc a1 b1
      obtain ⟨ρ', q1, q2, q3⟩ := ih r3 a2 b2 (fun p hp => hv p (by simp [hp]))
        (fun p hp => hs p (by simp [hp]))
      refine ⟨ρ', fun p hp => q1 p (r1 p hp), q2, ?_⟩
      have e1 : commandsOf j ((j, c) :: w) = c :: commandsOf j w := by simp [commandsOf]
      rw [e1, weave, run_cons_sees, run_cons_sees]
      have e2 : ∀ (o : Out F) os, seenBy j ((j, c) :: w) (o :: os) = o :: seenBy j w os := by
        intro o os; simp [seenBy]
      rw [e2, ← l1, ← l2]
      exact .cons (r2.mono q1) q3
    · obtain ⟨r3, l1, l2⟩ := h.otherStep e hvc (hs (j, c) (by simp) e) b1
      obtain ⟨ρ', q1, q2, q3⟩ := ih r3 hA b2 (fun p hp => hv p (by simp [hp]))
        (fun p hp => hs p (by simp [hp]))
      refine ⟨ρ', q1, q2, ?_⟩
      have e1 : commandsOf i ((j, c) :: w) = commandsOf i w := by simp [commandsOf, e]
      rw [e1, weave, run_cons_sees]
      have e2 : ∀ (o : Out F) os, seenBy i ((j, c) :: w) (o :: os) = seenBy i w os := by
        intro o os; simp [seenBy, e]
      rw [e2, ← l1, ← l2]
      exact q3

theorem SState.bind_fns (s : SState F) (r : PyRes (SVal F)) : (s.bind r).1.fns = s.fns := by
  unfold SState.bind
  split <;> rfl

theorem SState.step_fns (s : SState F) (c : Cmd F) : (s.step c).1.fns = s.fns ++ c.defs := by
  cases c <;> simp only [Cmd.defs, List.append_nil, SState.step, SState.read]
  all_goals
    repeat' split
    all_goals first
      | rfl
      | exact SState.bind_fns _ _

theorem SpecStep.fns {s s' : SState F} {c : Cmd F} {o : Out F} (h : SpecStep s c s' o) :
    s'.fns = s.fns ++ c.defs := by
  by_cases hc : c.isCopy = false
  · have := SState.step_fns s c
    rwa [← specStep_eq hc h] at this
  · cases c <;> simp only [Cmd.isCopy, not_true_eq_false] at hc <;>
      simp only [Cmd.defs, List.append_nil, SpecStep] at h ⊢
    case copy x =>
      split at h
      · exact congrArg (fun p => p.1.fns) h
      · obtain ⟨-, h⟩ := h
        split at h
        · rw [h]
        · obtain ⟨_, _, _, h, _⟩ := h
          exact h
    case deepcopy x =>
      split at h
      · exact congrArg (fun p => p.1.fns) h
      · obtain ⟨-, _, _, _, h, _⟩ := h
        exact h
    case pickle xs =>
      split at h
      · exact congrArg (fun p => p.1.fns) h
      · obtain ⟨-, _, _, _, h, _⟩ := h
        exact h

theorem SpecRun.fns {s s' : SState F} {cs : List (Cmd F)} {os : List (Out F)} (h : SpecRun s cs s' os) :
    s'.fns = s.fns ++ cs.flatMap Cmd.defs := by
  induction h with
  | nil => simp
  | cons h _ ih => rw [ih, h.fns]; simp

theorem Reaches.fnsOf_eq {cs : List (Cmd F)} {s : SState F} (h : Reaches cs s) : s.fns = fnsOf cs :=
  h.1.fns

theorem View.all (t : SState F) : View ⟨List.range t.env.length, List.range t.fns.length⟩ t t := by
  have := forall₂_range' [] t.env
  have h2 := forall₂_range' [] t.fns
  simp only [List.length_nil, List.nil_append, ← List.range_eq_range'] at this h2
  exact ⟨rfl, h2, this⟩

theorem Together.start {cs : List (Cmd F)} {s : SState F} (h : Reaches cs s) (i : Nat) :
    Together i s.env.length (fun _ => ⟨List.range s.env.length, List.range s.fns.length⟩)
      (idRen s.vars.length) s s := by
  refine ⟨fun _ => ⟨s, View.all s⟩, ⟨s, View.all s, Iso.refl h.wf⟩, ?_⟩
  intro j _ k m q v hk hm
  rw [List.getElem?_eq_none (by simpa using hk)] at hm
  cases hm

end Unc
