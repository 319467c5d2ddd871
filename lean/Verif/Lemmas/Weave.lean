import Verif.Spec.Weave
import Verif.Spec.Plain
import Verif.Lemmas.Iso2

/-
Programs that share an interpreter: the part of the state that a program sees, and the independence of
the others.
-/

namespace Unc

set_option linter.unusedSectionVars false
set_option autoImplicit false

variable {F : Type} [PyMath F]

/-! ### The part of a state that a program has names for -/

/-- `u` is the part of `t` that has names. -/
structure View (nm : Names) (u t : SState F) : Prop where
  vars : u.vars = t.vars
  fns : List.Forall₂ (fun m f => t.fns[m]? = some f) nm.fns u.fns
  env : List.Forall₂ (fun m a => t.env[m]? = some a) nm.vals u.env

theorem forall₂_lookup {β : Type} {l : List β} {ms : List Nat} {ks : List β}
    (h : List.Forall₂ (fun m a => l[m]? = some a) ms ks) (k : Nat) :
    l[ms.getD k l.length]? = ks[k]? := by
  induction h generalizing k with
  | nil => simp
  | cons h _ ih =>
    cases k with
    | zero => simpa using h
    | succ k => simpa using ih k

theorem forall₂_lookup_append {β : Type} {l : List β} {ms : List Nat} {ks : List β}
    (h : List.Forall₂ (fun m a => l[m]? = some a) ms ks) (new : List β) :
    List.Forall₂ (fun m a => (l ++ new)[m]? = some a) ms ks := by
  refine h.imp ?_
  intro m a hm
  obtain ⟨hlt, -⟩ := List.getElem?_eq_some_iff.1 hm
  rw [List.getElem?_append_left hlt, hm]

theorem forall₂_range' {β : Type} (l new : List β) :
    List.Forall₂ (fun m a => (l ++ new)[m]? = some a) (List.range' l.length new.length) new := by
  induction new generalizing l with
  | nil => exact .nil
  | cons a new ih =>
    rw [List.length_cons, List.range'_succ]
    refine .cons (by simp) ?_
    have := ih (l ++ [a])
    simpa using this

theorem seval_named {nm : Names} {u t : SState F} (h : View nm u t) (x : Arg F) :
    (x.named nm t.env.length).seval t.env = x.seval u.env := by
  cases x with
  | const v => rfl
  | ref k => simp only [Arg.named, Arg.seval, forall₂_lookup h.env k]

theorem sevalUnc_named {nm : Names} {u t : SState F} (h : View nm u t) (x : Arg F) :
    (x.named nm t.env.length).sevalUnc t.env = x.sevalUnc u.env := by
  simp only [Arg.sevalUnc, seval_named h]

theorem evalArgs_named {α β : Type} {ev ev' : α → Option β} {g : α → α} (h : ∀ a, ev (g a) = ev' a)
    (l : List α) : evalArgs ev (l.map g) = evalArgs ev' l := by
  induction l with
  | nil => rfl
  | cons a l ih => simp only [List.map_cons, evalArgs, h, ih]

theorem evalArgs_seval_named {nm : Names} {u t : SState F} (h : View nm u t) (xs : List (Arg F)) :
    evalArgs (Arg.seval t.env) (xs.map (Arg.named nm t.env.length)) = evalArgs (Arg.seval u.env) xs :=
  evalArgs_named (seval_named h) xs

theorem evalArgs_sevalUnc_named {nm : Names} {u t : SState F} (h : View nm u t) (xs : List (Arg F)) :
    evalArgs (Arg.sevalUnc t.env) (xs.map (Arg.named nm t.env.length)) =
      evalArgs (Arg.sevalUnc u.env) xs :=
  evalArgs_named (sevalUnc_named h) xs

theorem evalArgs_sevalKw_named {nm : Names} {u t : SState F} (h : View nm u t)
    (xs : List (String × Arg F)) :
    evalArgs (Arg.sevalKw t.env) (xs.map fun p => (p.1, p.2.named nm t.env.length)) =
      evalArgs (Arg.sevalKw u.env) xs :=
  evalArgs_named (fun p => by simp only [Arg.sevalKw, seval_named h]) xs

theorem evalArgs_sevalItem_named {nm : Names} {u t : SState F} (h : View nm u t)
    (xs : List (Arg F × F)) :
    evalArgs (Arg.sevalItem t.env) (xs.map fun p => (p.1.named nm t.env.length, p.2)) =
      evalArgs (Arg.sevalItem u.env) xs :=
  evalArgs_named (fun p => by simp only [Arg.sevalItem, sevalUnc_named h]) xs

/-! ### One command -/

/-- Both steps do the same thing: new variables, `d` as new functions, `n` new values, and the same
observation. -/
def Adds (s t : SState F) (n : Nat) (d : List (WrapDef F)) (a b : SState F × Out F) : Prop :=
  ∃ vars new o, a = (⟨vars, s.fns ++ d, s.env ++ new⟩, o) ∧
    b = (⟨vars, t.fns ++ d, t.env ++ new⟩, o) ∧ new.length = n

theorem Adds.env {s t : SState F} (vars : List (SVar F)) (new : List (Option (SVal F))) (o : Out F)
    {n : Nat} (hn : new.length = n) : Adds s t n [] (⟨vars, s.fns, s.env ++ new⟩, o)
      (⟨vars, t.fns, t.env ++ new⟩, o) :=
  ⟨vars, new, o, by simp, by simp, hn⟩

theorem Adds.out {s t : SState F} (hv : s.vars = t.vars) (o : Out F) : Adds s t 0 [] (s, o) (t, o) :=
  ⟨s.vars, [], o, by simp, by simp [hv], rfl⟩

theorem Adds.invalid {s t : SState F} (hv : s.vars = t.vars) (n : Nat) :
    Adds s t n [] (s.invalid n) (t.invalid n) := by
  unfold SState.invalid
  rw [hv]
  exact Adds.env _ _ _ (by simp)

theorem Adds.bind {s t : SState F} (hv : s.vars = t.vars) (r : PyRes (SVal F)) :
    Adds s t 1 [] (s.bind r) (t.bind r) := by
  unfold SState.bind
  rw [hv]
  split <;> exact Adds.env _ _ _ rfl

theorem step_named {nm : Names} {u t : SState F} (h : View nm u t) (c : Cmd F) (hc : c.isCopy = false) :
    Adds u t c.results c.defs (u.step c) (t.step (c.named nm t.env.length t.fns.length)) := by
  have hv := h.vars
  cases c <;> simp only [Cmd.isCopy, Bool.true_eq_false] at hc <;>
    simp only [Cmd.named, SState.step, SState.read, Cmd.results, Cmd.defs, seval_named h, sevalUnc_named h,
      evalArgs_seval_named h, evalArgs_sevalUnc_named h, evalArgs_sevalKw_named h,
      evalArgs_sevalItem_named h, forall₂_lookup h.fns, hv]
  case ufloat n std t =>
    split
    · exact Adds.env _ _ _ rfl
    · exact Adds.env _ _ _ rfl
  case affine n items =>
    generalize evalArgs (Arg.sevalItem u.env) items = a
    cases a with
    | none => exact Adds.invalid hv _
    | some d =>
      simp only
      split
      · exact Adds.env _ _ _ rfl
      · exact Adds.invalid hv _
  case wrap df => exact ⟨t.vars, [], .done, by simp, by simp, rfl⟩
  case call f args kwargs =>
    generalize evalArgs (Arg.seval u.env) args = a
    generalize evalArgs (Arg.sevalKw u.env) kwargs = b
    generalize u.fns[f]? = df
    cases df with
    | none => exact Adds.invalid hv _
    | some df =>
      cases a with
      | none => exact Adds.invalid hv _
      | some a =>
        cases b with
        | none => exact Adds.invalid hv _
        | some b => exact Adds.bind hv _
  case unop op x =>
    generalize x.sevalUnc u.env = a
    cases a with
    | none => exact Adds.invalid hv _
    | some a => exact Adds.bind hv _
  case binop op x y =>
    generalize x.seval u.env = a
    generalize y.seval u.env = b
    cases a with
    | none => exact Adds.invalid hv _
    | some a =>
      cases b with
      | none => exact Adds.invalid hv _
      | some b =>
        simp only
        split
        · exact Adds.bind hv _
        · exact Adds.invalid hv _
  case modf x =>
    generalize x.seval u.env = a
    cases a with
    | none => exact Adds.invalid hv _
    | some a =>
      simp only
      split
      · exact Adds.invalid hv _
      · generalize specModf a = r
        cases r with
        | error e => exact Adds.env _ _ _ rfl
        | ok p => exact Adds.env _ _ _ rfl
  case ldexp x i =>
    generalize x.seval u.env = a
    cases a with
    | none => exact Adds.invalid hv _
    | some a =>
      simp only
      split
      · exact Adds.invalid hv _
      · exact Adds.bind hv _
  case lcst f args kwargs =>
    generalize evalArgs (Arg.seval u.env) args = a
    generalize evalArgs (Arg.sevalKw u.env) kwargs = b
    cases a with
    | none => exact Adds.invalid hv _
    | some a =>
      cases b with
      | none => exact Adds.invalid hv _
      | some b => exact Adds.bind hv _
  case «variable» x v =>
    generalize x.sevalUnc u.env = a
    cases a with
    | none => exact Adds.invalid hv _
    | some a =>
      simp only
      split
      · exact Adds.env _ _ _ rfl
      · exact Adds.env _ _ _ rfl
  case setStd x std =>
    generalize x.sevalUnc u.env = a
    cases a with
    | none => exact Adds.invalid hv _
    | some a =>
      simp only
      split
      · exact Adds.out hv _
      · split
        · exact Adds.out hv _
        · exact ⟨t.vars.modify _ _, [], .done, by simp; rfl, by simp, rfl⟩
  case nominal x =>
    generalize x.seval u.env = a
    cases a with
    | none => exact Adds.invalid hv _
    | some a => exact Adds.out hv _
  case stdDev x =>
    generalize x.seval u.env = a
    cases a with
    | none => exact Adds.invalid hv _
    | some a => cases a <;> exact Adds.out hv _
  case covarianceMatrix xs =>
    generalize evalArgs (Arg.sevalUnc u.env) xs = a
    cases a with
    | none => exact Adds.invalid hv _
    | some a => exact Adds.out hv _
  case compare op x y =>
    generalize x.seval u.env = a
    generalize y.seval u.env = b
    cases a with
    | none => exact Adds.invalid hv _
    | some a =>
      cases b with
      | none => exact Adds.invalid hv _
      | some b =>
        simp only
        split
        · exact Adds.out hv _
        · exact Adds.invalid hv _
  all_goals
    generalize Arg.sevalUnc u.env _ = a
    cases a with
    | none => exact Adds.invalid hv _
    | some a => exact Adds.out hv _

/-- `u'` and `t'` are `u` and `t` after a command that does the same thing in both. -/
structure Added (u t u' t' : SState F) (n : Nat) (d : List (WrapDef F)) : Prop where
  vars : u'.vars = t'.vars
  fns : u'.fns = u.fns ++ d ∧ t'.fns = t.fns ++ d
  env : ∃ new, u'.env = u.env ++ new ∧ t'.env = t.env ++ new ∧ new.length = n

theorem Adds.added {u t : SState F} {n : Nat} {d : List (WrapDef F)} {a b : SState F × Out F}
    (h : Adds u t n d a b) : Added u t a.1 b.1 n d ∧ a.2 = b.2 := by
  obtain ⟨vars, new, o, rfl, rfl, hn⟩ := h
  exact ⟨⟨rfl, ⟨rfl, rfl⟩, new, rfl, rfl, hn⟩, rfl⟩

theorem SpecCopied.named {u t t' : SState F} (hv : u.vars = t.vars) {qs : List (SQ F)}
    (h : SpecCopied t t' qs) : ∃ u', SpecCopied u u' qs ∧ Added u t u' t' qs.length [] := by
  obtain ⟨ρ, qs', h1, h2, h3⟩ := h
  refine ⟨⟨t'.vars, u.fns, u.env ++ qs'.map fun q => some (.unc q)⟩, ⟨ρ, qs', by rw [hv]; exact h1, rfl,
    rfl⟩, rfl, ⟨by simp, by simp [h2]⟩, _, rfl, h3, ?_⟩
  rw [List.length_map, ← h1.copies.length_eq]

variable [ExactLin F]

theorem SpecStep.named {nm : Names} {u t t' : SState F} {o : Out F} (h : View nm u t) {c : Cmd F}
    (hs : SpecStep t (c.named nm t.env.length t.fns.length) t' o) :
    ∃ u', SpecStep u c u' o ∧ Added u t u' t' c.results c.defs := by
  have hv := h.vars
  by_cases hc : c.isCopy = false
  · have hc' : (c.named nm t.env.length t.fns.length).isCopy = false := by
      cases c <;> first | rfl | cases hc
    have e := specStep_eq hc' hs
    obtain ⟨h1, h2⟩ := (step_named h c hc).added
    rw [← e] at h1 h2
    refine ⟨(u.step c).1, ?_, h1⟩
    have : (u.step c) = ((u.step c).1, o) := Prod.ext rfl h2
    cases c <;> first | exact this.symm | cases hc
  · have hinv : ∀ n, (t', o) = t.invalid n → ∃ u', (u', o) = u.invalid n ∧ Added u t u' t' n [] := by
      intro n e
      obtain ⟨h1, h2⟩ := (Adds.invalid hv n).added
      rw [← e] at h1 h2
      exact ⟨(u.invalid n).1, Prod.ext rfl h2.symm, h1⟩
    cases c <;> simp only [Cmd.isCopy, not_true_eq_false] at hc
    case copy x =>
      simp only [Cmd.named, SpecStep, sevalUnc_named h, Cmd.results, Cmd.defs] at hs ⊢
      generalize x.sevalUnc u.env = a at hs ⊢
      cases a with
      | none => exact hinv _ hs
      | some q =>
        simp only at hs ⊢
        obtain ⟨rfl, hs⟩ := hs
        cases hq : q.var with
        | none =>
          simp only [hq] at hs
          subst hs
          exact ⟨_, ⟨rfl, rfl⟩, hv, ⟨by simp, by simp⟩, _, rfl, rfl, rfl⟩
        | some v =>
          simp only [hq] at hs
          obtain ⟨u', h1, h2⟩ := hs.named hv
          exact ⟨u', ⟨rfl, h1⟩, h2⟩
    case deepcopy x =>
      simp only [Cmd.named, SpecStep, sevalUnc_named h, Cmd.results, Cmd.defs] at hs ⊢
      generalize x.sevalUnc u.env = a at hs ⊢
      cases a with
      | none => exact hinv _ hs
      | some q =>
        simp only at hs ⊢
        obtain ⟨rfl, hs⟩ := hs
        obtain ⟨u', h1, h2⟩ := hs.named hv
        exact ⟨u', ⟨rfl, h1⟩, h2⟩
    case pickle xs =>
      simp only [Cmd.named, SpecStep, evalArgs_sevalUnc_named h, Cmd.results, Cmd.defs,
        List.length_map] at hs ⊢
      generalize ha : evalArgs (Arg.sevalUnc u.env) xs = a at hs ⊢
      cases a with
      | none => exact hinv _ hs
      | some qs =>
        simp only at hs ⊢
        obtain ⟨rfl, hs⟩ := hs
        obtain ⟨u', h1, h2⟩ := hs.named hv
        rw [evalArgs_length ha] at h2
        exact ⟨u', ⟨rfl, h1⟩, h2⟩

theorem View.step {nm : Names} {u t u' t' : SState F} (h : View nm u t) {c : Cmd F}
    (ha : Added u t u' t' c.results c.defs) :
    View (nm.grow t.env.length t.fns.length c) u' t' := by
  obtain ⟨h1, ⟨h2, h3⟩, new, h4, h5, h6⟩ := ha
  refine ⟨h1, ?_, ?_⟩
  · rw [h2, h3]
    exact List.rel_append (forall₂_lookup_append h.fns _) (forall₂_range' _ _)
  · rw [h4, h5, Names.grow, ← h6]
    exact List.rel_append (forall₂_lookup_append h.env _) (forall₂_range' _ _)

/-! ### What a command does not change -/

/-- What a command does: it binds new variables or quantities that are not variables, and it changes at
most one old variable. -/
structure StepEffect (t : SState F) (c : Cmd F) (t' : SState F) : Prop where
  env : ∃ new, t'.env = t.env ++ new ∧ ∀ q v, some (SVal.unc q) ∈ new → q.var = some v →
    t.vars.length ≤ v ∧ v < t'.vars.length
  vars : t.vars.length ≤ t'.vars.length
  old : ∀ v, v < t.vars.length → t'.vars[v]? = t.vars[v]? ∨
    ∃ x std q, c = .setStd x std ∧ x.sevalUnc t.env = some q ∧ q.var = some v

theorem StepEffect.of_env {t : SState F} {c : Cmd F} (fns : List (WrapDef F))
    (new : List (Option (SVal F))) (h : ∀ q, some (SVal.unc q) ∈ new → q.var = none) :
    StepEffect t c ⟨t.vars, fns, t.env ++ new⟩ :=
  ⟨⟨new, rfl, fun q v hq hv => by rw [h q hq] at hv; cases hv⟩, le_rfl, fun _ _ => .inl rfl⟩

theorem StepEffect.same {t : SState F} {c : Cmd F} : StepEffect t c t :=
  ⟨⟨[], by simp, by simp⟩, le_rfl, fun _ _ => .inl rfl⟩

theorem StepEffect.invalid {t : SState F} {c : Cmd F} (n : Nat) : StepEffect t c (t.invalid n).1 :=
  StepEffect.of_env _ _ (fun q hq => by
    rw [List.mem_replicate] at hq
    cases hq.2)

theorem StepEffect.bind {t : SState F} {c : Cmd F} {r : PyRes (SVal F)}
    (h : ∀ q, r = .ok (.unc q) → q.var = none) : StepEffect t c (t.bind r).1 := by
  unfold SState.bind
  split
  · exact StepEffect.of_env _ _ (by simp)
  · exact StepEffect.of_env _ _ (by simp)
  · refine StepEffect.of_env _ _ ?_
    intro q hq
    simp only [List.mem_singleton, Option.some.injEq] at hq
    exact h q (by rw [hq])

theorem specCall_novar {df : WrapDef F} {args : List (SVal F)} {kwargs : List (String × SVal F)}
    {q : SQ F} (h : specCall df args kwargs = .ok (.unc q)) : q.var = none := by
  simp only [specCall] at h
  generalize df.f _ _ = r at h
  cases r with
  | error e => cases h
  | ok v =>
    simp only at h
    repeat' split at h
    all_goals first
      | (cases h; done)
      | (simp only [Except.ok.injEq, SVal.unc.injEq] at h; rw [← h])

theorem specBinop_novar {op : BinOp} {a b : SVal F} {q : SQ F} (h : specBinop op a b = .ok (.unc q)) :
    q.var = none := by
  unfold specBinop at h
  repeat' split at h
  all_goals first
    | (cases h; done)
    | exact specCall_novar h

theorem specModf_novar {a x : SVal F} {b : F} (h : specModf a = .ok (x, b)) (q : SQ F)
    (hx : x = .unc q) : q.var = none := by
  unfold specModf at h
  subst hx
  split at h <;> simp only [Except.ok.injEq, Prod.mk.injEq, SVal.unc.injEq, reduceCtorEq, false_and] at h
  rw [← h.1]

theorem specLdexp_novar {i : Int} {a : SVal F} {q : SQ F} (h : specLdexp i a = .ok (.unc q)) :
    q.var = none := by
  unfold specLdexp at h
  repeat' split at h
  all_goals first
    | (cases h; done)
    | (simp only [Except.ok.injEq, SVal.unc.injEq] at h; rw [← h])

theorem specLcst_novar {f : PyFn F} {args : List (SVal F)} {kwargs : List (String × SVal F)}
    {q : SQ F} (h : specLcst f args kwargs = .ok (.unc q)) : q.var = none := by
  unfold specLcst at h
  split at h <;> cases h

theorem SpecCopied.effect {t t' : SState F} {c : Cmd F} {qs : List (SQ F)} (h : SpecCopied t t' qs) :
    StepEffect t c t' := by
  obtain ⟨ρ, qs', h1, -, h3⟩ := h
  obtain ⟨l, hl⟩ := h1.old
  refine ⟨⟨_, h3, ?_⟩, by simp [hl], fun v hv => .inl (by rw [hl, List.getElem?_append_left hv])⟩
  intro q' v' hq hv
  simp only [List.mem_map, Option.some.injEq, SVal.unc.injEq, exists_eq_right] at hq
  have : ∃ q ∈ qs, (∀ v, q.var = some v → ∃ v', q'.var = some v' ∧ (v, v') ∈ ρ) ∧
      (q.var = none → q'.var = none) := by
    have h2 := h1.copies
    clear h1 h3 hl
    induction h2 with
    | nil => cases hq
    | cons a _ ih =>
      rcases List.mem_cons.1 hq with rfl | hq
      · exact ⟨_, by simp, a.2.2⟩
      · obtain ⟨q, b1, b2⟩ := ih hq
        exact ⟨q, by simp [b1], b2⟩
  obtain ⟨q, -, b1, b2⟩ := this
  cases hqv : q.var with
  | none => rw [b2 hqv] at hv; cases hv
  | some v =>
    obtain ⟨w, c1, c2⟩ := b1 v hqv
    rw [c1] at hv
    cases hv
    obtain ⟨-, d1, d2, -⟩ := h1.fresh _ _ c2
    exact ⟨d1, d2⟩

theorem SState.step_effect (t : SState F) (c : Cmd F) (hv : c.isVariable = false) :
    StepEffect t c (t.step c).1 := by
  by_cases hr : c.isRead = true
  · rw [SState.step_read t hr]; exact StepEffect.same
  cases c <;> simp only [Cmd.isRead, not_true_eq_false] at hr <;> simp only [SState.step]
  case ufloat n std tag =>
    split
    · exact StepEffect.of_env _ _ (by simp)
    · refine ⟨⟨_, rfl, ?_⟩, by simp, fun v hv => .inl (by simp [List.getElem?_append_left hv])⟩
      intro q v hq hv
      simp only [List.mem_singleton, Option.some.injEq, SVal.unc.injEq] at hq
      subst hq
      cases hv
      simp
  case affine n items =>
    split
    · exact StepEffect.invalid _
    · split
      · exact StepEffect.of_env _ _ (by simp)
      · exact StepEffect.invalid _
  case wrap df => exact ⟨⟨[], by simp, by simp⟩, le_rfl, fun _ _ => .inl rfl⟩
  case call f args kwargs =>
    split
    · exact StepEffect.invalid _
    · split
      · exact StepEffect.bind fun q h => specCall_novar h
      · exact StepEffect.invalid _
  case unop op x =>
    split
    · exact StepEffect.invalid _
    · exact StepEffect.bind fun q h => specCall_novar h
  case binop op x y =>
    split
    · split
      · exact StepEffect.bind fun q h => specBinop_novar h
      · exact StepEffect.invalid _
    · exact StepEffect.invalid _
  case modf x =>
    split
    · exact StepEffect.invalid _
    · split
      · exact StepEffect.invalid _
      · split
        · exact StepEffect.of_env _ _ (by simp)
        · rename_i a b h
          refine StepEffect.of_env _ _ ?_
          intro q hq
          simp only [List.mem_cons, Option.some.injEq, reduceCtorEq, List.not_mem_nil, or_false] at hq
          exact specModf_novar h q hq.symm
  case ldexp x i =>
    split
    · exact StepEffect.invalid _
    · split
      · exact StepEffect.invalid _
      · exact StepEffect.bind fun q h => specLdexp_novar h
  case lcst f args kwargs =>
    split
    · exact StepEffect.bind fun q h => specLcst_novar h
    · exact StepEffect.invalid _
  case copy => exact StepEffect.same
  case deepcopy => exact StepEffect.same
  case pickle => exact StepEffect.same
  case «variable» => cases hv
  case setStd x std =>
    split
    · exact StepEffect.invalid _
    · rename_i q hq
      split
      · exact StepEffect.same
      · rename_i w hw
        split
        · exact StepEffect.same
        · refine ⟨⟨[], by simp, by simp⟩, by simp, fun v _ => ?_⟩
          by_cases e : w = v
          · subst e
            exact .inr ⟨x, std, q, rfl, hq, hw⟩
          · exact .inl (by simp [List.getElem?_modify, e])

theorem SpecStep.effect {t t' : SState F} {c : Cmd F} {o : Out F} (h : SpecStep t c t' o)
    (hv : c.isVariable = false) : StepEffect t c t' := by
  have hinv : ∀ n, (t', o) = t.invalid n → StepEffect t c t' := by
    intro n e
    have := StepEffect.invalid (t := t) (c := c) n
    rwa [← e] at this
  by_cases hc : c.isCopy = false
  · have := SState.step_effect t c hv
    rwa [← specStep_eq hc h] at this
  · cases c <;> simp only [Cmd.isCopy, not_true_eq_false] at hc
    case copy x =>
      simp only [SpecStep] at h
      split at h
      · exact hinv _ h
      · rename_i q _
        obtain ⟨-, h⟩ := h
        split at h
        · rename_i hq
          subst h
          exact StepEffect.of_env _ _ (by simp [hq])
        · exact h.effect
    case deepcopy x =>
      simp only [SpecStep] at h
      split at h
      · exact hinv _ h
      · exact h.2.effect
    case pickle xs =>
      simp only [SpecStep] at h
      split at h
      · exact hinv _ h
      · exact h.2.effect

/-- The others go on. -/
theorem View.other {nm : Names} {u t t' : SState F} (h : View nm u t) {d : List (WrapDef F)}
    {new : List (Option (SVal F))} (hd : t'.fns = t.fns ++ d) (hn : t'.env = t.env ++ new) :
    View nm ⟨t'.vars, u.fns, u.env⟩ t' := by
  refine ⟨rfl, ?_, ?_⟩
  · rw [hd]; exact forall₂_lookup_append h.fns _
  · rw [hn]; exact forall₂_lookup_append h.env _

end Unc
