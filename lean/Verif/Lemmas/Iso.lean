import Verif.Lemmas.Sees
import Verif.Spec.Same
import Verif.Spec.Plain

/-
States of the specification that are the same up to a renaming of the variables.
-/

namespace Unc

set_option linter.unusedSectionVars false
set_option autoImplicit false

variable {F : Type}

/-! ### Renamings -/

/-- Other formulation of `Renames`. -/
structure REq (ρ : List (VarId × VarId)) (l l' : Lin F) : Prop where
  eq : ∀ v v', (v, v') ∈ ρ → l v = l' v'
  left : ∀ v, l v ≠ none → ∃ v', (v, v') ∈ ρ
  right : ∀ v', l' v' ≠ none → ∃ v, (v, v') ∈ ρ

theorem Renames.req {ρ : List (VarId × VarId)} (ho : OneToOne ρ) {l l' : Lin F} (h : Renames ρ l l') :
    REq ρ l l' := by
  refine ⟨?_, ?_, ?_⟩
  · intro v v' hv
    cases hx : l v with
    | some x =>
      obtain ⟨u, h1, h2⟩ := h.forth v x hx
      rw [ho.left v v' u hv h1, h2]
    | none =>
      cases hy : l' v' with
      | none => rfl
      | some y =>
        obtain ⟨u, h1, h2⟩ := h.back v' y hy
        rw [ho.right v' v u hv h1, h2] at hx
        cases hx
  · intro v hv
    obtain ⟨x, hx⟩ := Option.ne_none_iff_exists'.mp hv
    obtain ⟨u, h1, -⟩ := h.forth v x hx
    exact ⟨u, h1⟩
  · intro v hv
    obtain ⟨x, hx⟩ := Option.ne_none_iff_exists'.mp hv
    obtain ⟨u, h1, -⟩ := h.back v x hx
    exact ⟨u, h1⟩

theorem REq.renames {ρ : List (VarId × VarId)} {l l' : Lin F} (h : REq ρ l l') : Renames ρ l l' := by
  refine ⟨?_, ?_⟩
  · intro v x hx
    obtain ⟨v', hv⟩ := h.left v (by rw [hx]; simp)
    exact ⟨v', hv, by rw [← h.eq v v' hv, hx]⟩
  · intro v' x hx
    obtain ⟨v, hv⟩ := h.right v' (by rw [hx]; simp)
    exact ⟨v, hv, by rw [h.eq v v' hv, hx]⟩

theorem Renames.mono_of {ρ ρ' : List (VarId × VarId)} {l l' : Lin F} (h : Renames ρ l l')
    (hs : ∀ p, p ∈ ρ → p ∈ ρ') : Renames ρ' l l' :=
  ⟨fun v x hx => by obtain ⟨u, h1, h2⟩ := h.forth v x hx; exact ⟨u, hs _ h1, h2⟩,
   fun v x hx => by obtain ⟨u, h1, h2⟩ := h.back v x hx; exact ⟨u, hs _ h1, h2⟩⟩

theorem Out.Same.mono {ρ ρ' : List (VarId × VarId)} {o o' : Out F} (h : Out.Same ρ o o')
    (hs : ∀ p, p ∈ ρ → p ∈ ρ') : Out.Same ρ' o o' := by
  cases o <;> cases o' <;> first | exact h | exact Renames.mono_of h hs

theorem Out.Same.of_eq {ρ : List (VarId × VarId)} {o : Out F} (h : ∀ l, o ≠ .dict l) : Out.Same ρ o o := by
  cases o <;> first | rfl | exact absurd rfl (h _)

variable [PyOps F]

theorem REq.zero (ρ : List (VarId × VarId)) : REq ρ (Lin.zero : Lin F) Lin.zero :=
  ⟨fun _ _ _ => rfl, fun _ h => absurd rfl h, fun _ h => absurd rfl h⟩

theorem REq.smul {ρ : List (VarId × VarId)} {l l' : Lin F} (h : REq ρ l l') (c : F) :
    REq ρ (Lin.smul c l) (Lin.smul c l') := by
  refine ⟨?_, ?_, ?_⟩
  · intro v v' hv; simp only [Lin.smul, h.eq v v' hv]
  · intro v hv; exact h.left v (by intro e; simp [Lin.smul, e] at hv)
  · intro v hv; exact h.right v (by intro e; simp [Lin.smul, e] at hv)

theorem REq.add {ρ : List (VarId × VarId)} {l l' k k' : Lin F} (h : REq ρ l l') (h' : REq ρ k k') :
    REq ρ (Lin.add l k) (Lin.add l' k') := by
  refine ⟨?_, ?_, ?_⟩
  · intro v v' hv; simp only [Lin.add, h.eq v v' hv, h'.eq v v' hv]
  · intro v hv
    by_cases e : l v = none
    · exact h'.left v (by intro e'; simp [Lin.add, e, e', optAdd] at hv)
    · exact h.left v e
  · intro v hv
    by_cases e : l' v = none
    · exact h'.right v (by intro e'; simp [Lin.add, e, e', optAdd] at hv)
    · exact h.right v e

/-- Terms with the same coefficients and renamed gradients. -/
def TermsRel (ρ : List (VarId × VarId)) (l l' : List (F × Lin F)) : Prop :=
  List.Forall₂ (fun p p' => p.1 = p'.1 ∧ REq ρ p.2 p'.2) l l'

theorem REq.comb {ρ : List (VarId × VarId)} {l l' : List (F × Lin F)} (h : TermsRel ρ l l') :
    REq ρ (Lin.comb l) (Lin.comb l') := by
  induction h with
  | nil => exact REq.zero ρ
  | @cons p p' l l' hp _ ih =>
    obtain ⟨c, d⟩ := p
    obtain ⟨c', d'⟩ := p'
    obtain ⟨h1, h2⟩ := hp
    simp only at h1 h2
    subst h1
    exact (h2.smul c).add ih

theorem REq.single {ρ : List (VarId × VarId)} (ho : OneToOne ρ) {v v' : VarId} (h : (v, v') ∈ ρ) :
    REq ρ (Lin.single v : Lin F) (Lin.single v') := by
  refine ⟨?_, ?_, ?_⟩
  · intro u u' hu
    simp only [Lin.single]
    by_cases e : u = v
    · subst e
      rw [ho.left u u' v' hu h]
      simp
    · have : u' ≠ v' := by
        rintro rfl
        exact e (ho.right u' u v hu h)
      simp [e, this]
  · intro u hu
    by_cases e : u = v
    · exact ⟨v', e ▸ h⟩
    · simp [Lin.single, e] at hu
  · intro u hu
    by_cases e : u = v'
    · exact ⟨v, e ▸ h⟩
    · simp [Lin.single, e] at hu

/-! ### Sums over variables -/

theorem sumVars_remove [ExactLin F] (ψ : VarId → F) (v n : Nat) (hv : v < n) :
    sumVars ψ n = ψ v + sumVars (fun u => if u = v then 0 else ψ u) n := by
  have := sumVars_insert (fun u => if u = v then 0 else ψ u) v (ψ v) n hv (by simp)
  rw [← this]
  apply sumVars_congr
  intro u _
  by_cases e : u = v
  · simp [e]
  · simp [e]

theorem sumVars_ren [ExactLin F] (R : VarId → VarId → Prop)
    (hl : ∀ v a b, R v a → R v b → a = b) (hr : ∀ v a b, R a v → R b v → a = b)
    (n n' : Nat) (ψ ψ' : VarId → F) (heq : ∀ v, v < n → ∀ v', R v v' → v' < n' ∧ ψ v = ψ' v')
    (h0 : ∀ v, v < n → (∃ v', R v v') ∨ ψ v = 0)
    (h0' : ∀ v', v' < n' → (∃ v, v < n ∧ R v v') ∨ ψ' v' = 0) :
    sumVars ψ n = sumVars ψ' n' := by
  induction n generalizing ψ' with
  | zero =>
    rw [sumVars_congr (ψ := ψ') (φ := fun _ => 0), sumVars_zero]
    · rfl
    · intro v hv
      rcases h0' v hv with ⟨u, hu, -⟩ | h
      · omega
      · exact h
  | succ n ih =>
    simp only [sumVars]
    by_cases hex : ∃ v', R n v'
    · obtain ⟨v', hv'⟩ := hex
      obtain ⟨hlt, he⟩ := heq n (by omega) v' hv'
      rw [sumVars_remove ψ' v' n' hlt, ← he, ExactLin.add_comm]
      congr 1
      apply ih
      · intro u hu u' hR
        obtain ⟨a, b⟩ := heq u (by omega) u' hR
        have : u' ≠ v' := by
          rintro rfl
          have := hr u' u n hR hv'
          omega
        exact ⟨a, by simp [this, b]⟩
      · intro u hu; exact h0 u (by omega)
      · intro u' hu'
        by_cases e : u' = v'
        · right; simp [e]
        · rcases h0' u' hu' with ⟨u, hu, hR⟩ | h
          · left
            refine ⟨u, ?_, hR⟩
            have : u ≠ n := by
              rintro rfl
              exact e (hl u u' v' hR hv')
            omega
          · right; simp [e, h]
    · have hz : ψ n = 0 := by
        rcases h0 n (by omega) with h | h
        · exact absurd h hex
        · exact h
      rw [hz, ExactLin.add_comm, ExactLin.zero_add]
      apply ih
      · intro u hu; exact heq u (by omega)
      · intro u hu; exact h0 u (by omega)
      · intro u' hu'
        rcases h0' u' hu' with ⟨u, hu, hR⟩ | h
        · left
          refine ⟨u, ?_, hR⟩
          have : u ≠ n := by
            rintro rfl
            exact hex ⟨u', hR⟩
          omega
        · exact Or.inr h

/-! ### Variables that correspond to each other -/

/-- The variables related by `ρ` have the same nominal value, standard deviation and tag. -/
structure VarsRel (ρ : List (VarId × VarId)) (vars vars' : List (SVar F)) : Prop where
  one : OneToOne ρ
  lt : ∀ v v', (v, v') ∈ ρ → v < vars.length ∧ v' < vars'.length
  eq : ∀ v v', (v, v') ∈ ρ → vars[v]? = vars'[v']?

variable [ExactLin F]

theorem specVariance_ren {ρ : List (VarId × VarId)} {vars vars' : List (SVar F)}
    (h : VarsRel ρ vars vars') {l l' : Lin F} (hl : REq ρ l l') :
    specVariance vars l = specVariance vars' l' := by
  unfold specVariance
  refine sumVars_ren (fun v v' => (v, v') ∈ ρ) h.one.left h.one.right _ _ _ _ ?_ ?_ ?_
  · intro v _ v' hR
    refine ⟨(h.lt v v' hR).2, ?_⟩
    simp only [specVarianceTerm, hl.eq v v' hR, h.eq v v' hR]
  · intro v _
    by_cases e : l v = none
    · right; simp [specVarianceTerm, e]
    · exact Or.inl (hl.left v e)
  · intro v' _
    by_cases e : l' v' = none
    · right; simp [specVarianceTerm, e]
    · obtain ⟨v, hv⟩ := hl.right v' e
      exact Or.inl ⟨v, (h.lt v v' hv).1, hv⟩

theorem specStd_ren {ρ : List (VarId × VarId)} {vars vars' : List (SVar F)}
    (h : VarsRel ρ vars vars') {l l' : Lin F} (hl : REq ρ l l') :
    specStd vars l = specStd vars' l' := by
  simp only [specStd, specVariance_ren h hl]

theorem specCov_ren {ρ : List (VarId × VarId)} {vars vars' : List (SVar F)}
    (h : VarsRel ρ vars vars') {l l' k k' : Lin F} (hl : REq ρ l l') (hk : REq ρ k k') :
    specCov vars l k = specCov vars' l' k' := by
  unfold specCov
  refine sumVars_ren (fun v v' => (v, v') ∈ ρ) h.one.left h.one.right _ _ _ _ ?_ ?_ ?_
  · intro v _ v' hR
    refine ⟨(h.lt v v' hR).2, ?_⟩
    simp only [hl.eq v v' hR, hk.eq v v' hR, h.eq v v' hR]
  · intro v _
    by_cases e : l v = none
    · right; simp [e]
    · exact Or.inl (hl.left v e)
  · intro v' _
    by_cases e : l' v' = none
    · right; simp [e]
    · obtain ⟨v, hv⟩ := hl.right v' e
      exact Or.inl ⟨v, (h.lt v v' hv).1, hv⟩

omit [ExactLin F] in
theorem specErrorComponents_ren {ρ : List (VarId × VarId)} {vars vars' : List (SVar F)}
    (h : VarsRel ρ vars vars') {l l' : Lin F} (hl : REq ρ l l') :
    REq ρ (specErrorComponents vars l) (specErrorComponents vars' l') := by
  refine ⟨?_, ?_, ?_⟩
  · intro v v' hR
    simp only [specErrorComponents, hl.eq v v' hR, h.eq v v' hR]
  · intro v hv
    exact hl.left v (by intro e; simp [specErrorComponents, e] at hv)
  · intro v hv
    exact hl.right v (by intro e; simp [specErrorComponents, e] at hv)

/-! ### Values that correspond to each other -/

/-- Quantities that correspond to each other. -/
structure SQRel (ρ : List (VarId × VarId)) (q q' : SQ F) : Prop where
  nom : q.nom = q'.nom
  grad : REq ρ q.grad q'.grad
  var : ∀ v, q.var = some v → ∃ v', q'.var = some v' ∧ (v, v') ∈ ρ
  novar : q.var = none → q'.var = none

omit [ExactLin F] [PyOps F] in
theorem SQRel.isNone {ρ : List (VarId × VarId)} {q q' : SQ F} (h : SQRel ρ q q') :
    q.var.isNone = q'.var.isNone ∧ q.var.isSome = q'.var.isSome := by
  cases hq : q.var with
  | none => simp [h.novar hq]
  | some v => obtain ⟨v', h1, -⟩ := h.var v hq; simp [h1]

inductive SValRel (ρ : List (VarId × VarId)) : SVal F → SVal F → Prop where
  | plain (v) : SValRel ρ (.plain v) (.plain v)
  | unc {q q'} : SQRel ρ q q' → SValRel ρ (.unc q) (.unc q')

inductive OptRel {α : Type} (R : α → α → Prop) : Option α → Option α → Prop where
  | none : OptRel R none none
  | some {a b} : R a b → OptRel R (some a) (some b)

omit [ExactLin F] [PyOps F] in
theorem SValRel.isUnc {ρ : List (VarId × VarId)} {a b : SVal F} (h : SValRel ρ a b) :
    a.isUnc = b.isUnc := by cases h <;> rfl

omit [ExactLin F] [PyOps F] in
theorem SValRel.nominal {ρ : List (VarId × VarId)} {a b : SVal F} (h : SValRel ρ a b) :
    a.nominal = b.nominal := by
  cases h with
  | plain v => rfl
  | unc h => simp [SVal.nominal, h.nom]

/-- Results. -/
inductive ResRel {α β : Type} (R : α → β → Prop) : PyRes α → PyRes β → Prop where
  | error (e) : ResRel R (.error e) (.error e)
  | ok {a b} : R a b → ResRel R (.ok a) (.ok b)

omit [ExactLin F] in
theorem specStdDev_ren [ExactLin F] {ρ : List (VarId × VarId)} {vars vars' : List (SVar F)}
    (h : VarsRel ρ vars vars') {q q' : SQ F} (hq : SQRel ρ q q') :
    specStdDev vars q = specStdDev vars' q' := by
  unfold specStdDev
  cases hv : q.var with
  | none => simp only [hq.novar hv, specStd_ren h hq.grad]
  | some v =>
    obtain ⟨v', h1, h2⟩ := hq.var v hv
    simp only [h1, h.eq v v' h2]

theorem specEq_ren {ρ : List (VarId × VarId)} {vars vars' : List (SVar F)}
    (h : VarsRel ρ vars vars') {q q' p p' : SQ F} (hq : SQRel ρ q q') (hp : SQRel ρ p p') :
    specEq vars q p = specEq vars' q' p' := by
  unfold specEq
  rw [hq.nom, hp.nom, specStd_ren h (REq.comb (l := [(1, q.grad), (-1, p.grad)]) (l' := [(1, q'.grad), (-1, p'.grad)])
    (.cons ⟨rfl, hq.grad⟩ (.cons ⟨rfl, hp.grad⟩ .nil)))]

theorem specCmp_ren {ρ : List (VarId × VarId)} {vars vars' : List (SVar F)}
    (h : VarsRel ρ vars vars') (op : CmpOp) {q q' p p' : SQ F} (hq : SQRel ρ q q')
    (hp : SQRel ρ p p') : specCmp vars op q p = specCmp vars' op q' p' := by
  cases op <;> simp only [specCmp, specEq_ren h hq hp, hq.nom, hp.nom]

omit [ExactLin F] in
theorem SQRel.exact (ρ : List (VarId × VarId)) (x : F) : SQRel ρ (specExact x) (specExact x) :=
  ⟨rfl, REq.zero ρ, fun _ h => (by cases h), fun _ => rfl⟩

theorem specCmpVal_ren {ρ : List (VarId × VarId)} {vars vars' : List (SVar F)}
    (h : VarsRel ρ vars vars') (op : CmpOp) {q q' : SQ F} {b b' : SVal F} (hq : SQRel ρ q q')
    (hb : SValRel ρ b b') : specCmpVal vars op q b = specCmpVal vars' op q' b' := by
  cases hb with
  | unc hp => simp only [specCmpVal, specCmp_ren h op hq hp]
  | plain v =>
    cases v with
    | flt x => simp only [specCmpVal, specCmp_ren h op hq (SQRel.exact ρ x)]
    | cplx => rfl
    | other _ => rfl
    | notImpl => rfl

omit [ExactLin F] in
theorem specPosTerms_ren {ρ : List (VarId × VarId)} (df : WrapDef F) (av : List (PyVal F))
    (kv : KwArgs F) (pos : Nat) {l l' : List (SVal F)} (h : List.Forall₂ (SValRel ρ) l l') :
    ResRel (TermsRel ρ) (specPosTerms df av kv pos l) (specPosTerms df av kv pos l') := by
  induction h generalizing pos with
  | nil => exact .ok .nil
  | cons h _ ih =>
    cases h with
    | plain v => exact ih (pos + 1)
    | unc hq =>
      simp only [specPosTerms]
      cases df.specPos pos av kv with
      | error e => exact .error e
      | ok c =>
        simp only []
        have := ih (pos + 1)
        revert this
        generalize specPosTerms df av kv (pos + 1) _ = r1
        generalize specPosTerms df av kv (pos + 1) _ = r2
        intro this
        cases this with
        | error e => exact .error e
        | ok h => exact .ok (.cons ⟨rfl, hq.grad⟩ h)

omit [ExactLin F] in
theorem specKwTerms_ren {ρ : List (VarId × VarId)} (df : WrapDef F) (av : List (PyVal F))
    (kv : KwArgs F) {l l' : List (String × SVal F)}
    (h : List.Forall₂ (fun p p' => p.1 = p'.1 ∧ SValRel ρ p.2 p'.2) l l') :
    ResRel (TermsRel ρ) (specKwTerms df av kv l) (specKwTerms df av kv l') := by
  induction h with
  | nil => exact .ok .nil
  | @cons p p' l l' hp _ ih =>
    obtain ⟨n, a⟩ := p
    obtain ⟨n', b⟩ := p'
    obtain ⟨e, h⟩ := hp
    simp only at e h
    subst e
    cases h with
    | plain v => exact ih
    | unc hq =>
      simp only [specKwTerms]
      cases df.specKw n av kv with
      | error e => exact .error e
      | ok c =>
        simp only []
        revert ih
        generalize specKwTerms df av kv l = r1
        generalize specKwTerms df av kv l' = r2
        intro this
        cases this with
        | error e => exact .error e
        | ok h => exact .ok (.cons ⟨rfl, hq.grad⟩ h)

omit [ExactLin F] in
theorem specCall_ren {ρ : List (VarId × VarId)} (df : WrapDef F) {a a' : List (SVal F)}
    {k k' : List (String × SVal F)} (ha : List.Forall₂ (SValRel ρ) a a')
    (hk : List.Forall₂ (fun p p' => p.1 = p'.1 ∧ SValRel ρ p.2 p'.2) k k') :
    ResRel (SValRel ρ) (specCall df a k) (specCall df a' k') := by
  have e1 : a.map SVal.nominal = a'.map SVal.nominal := by
    induction ha with
    | nil => rfl
    | cons h _ ih => simp [h.nominal, ih]
  have e2 : k.map (fun p => (p.1, p.2.nominal)) = k'.map (fun p => (p.1, p.2.nominal)) := by
    induction hk with
    | nil => rfl
    | cons h _ ih => simp [h.1, h.2.nominal, ih]
  have e3 : a.all (fun a => !a.isUnc) = a'.all (fun a => !a.isUnc) := by
    clear e1
    induction ha with
    | nil => rfl
    | cons h _ ih => simp only [List.all_cons, h.isUnc, ih]
  have e4 : k.all (fun p => !p.2.isUnc) = k'.all (fun p => !p.2.isUnc) := by
    clear e2
    induction hk with
    | nil => rfl
    | cons h _ ih => simp only [List.all_cons, h.2.isUnc, ih]
  unfold specCall
  simp only [e1, e2, e3, e4]
  cases df.f (a'.map SVal.nominal) (k'.map (fun p => (p.1, p.2.nominal))) with
  | error e => exact .error e
  | ok v =>
    simp only []
    split
    · exact .ok (.plain v)
    · split
      · exact .ok (.plain _)
      · have h1 := specPosTerms_ren (ρ := ρ) df (a'.map SVal.nominal)
          (k'.map (fun p => (p.1, p.2.nominal))) 0 ha
        have h2 := specKwTerms_ren (ρ := ρ) df (a'.map SVal.nominal)
          (k'.map (fun p => (p.1, p.2.nominal))) hk
        revert h1 h2
        generalize specPosTerms df _ _ 0 a = r1
        generalize specPosTerms df _ _ 0 a' = r2
        generalize specKwTerms df _ _ k = r3
        generalize specKwTerms df _ _ k' = r4
        intro h1 h2
        cases h1 with
        | error e => exact .error e
        | ok h1 =>
          cases h2 with
          | error e => exact .error e
          | ok h2 =>
            simp only []
            cases v.toFloat with
            | error e => exact .error e
            | ok x =>
              refine .ok (.unc ⟨rfl, REq.comb (List.rel_append h1 h2), ?_, fun _ => rfl⟩)
              intro v h; cases h


/-! ### States -/

section
variable {F : Type} [PyMath F]

/-- States of the specification that are the same up to a renaming of the variables. -/
structure Iso (ρ : List (VarId × VarId)) (s t : SState F) : Prop where
  vars : VarsRel ρ s.vars t.vars
  fns : s.fns = t.fns
  env : List.Forall₂ (OptRel (SValRel ρ)) s.env t.env

theorem REq.mono {ρ ρ' : List (VarId × VarId)} {l l' : Lin F} (ho' : OneToOne ρ')
    (h : REq ρ l l') (hs : ∀ p, p ∈ ρ → p ∈ ρ') : REq ρ' l l' :=
  Renames.req ho' (h.renames.mono_of hs)

theorem SQRel.mono {ρ ρ' : List (VarId × VarId)} {q q' : SQ F} (ho' : OneToOne ρ')
    (h : SQRel ρ q q') (hs : ∀ p, p ∈ ρ → p ∈ ρ') : SQRel ρ' q q' :=
  ⟨h.nom, h.grad.mono ho' hs, fun v hv => by
    obtain ⟨v', h1, h2⟩ := h.var v hv; exact ⟨v', h1, hs _ h2⟩, h.novar⟩

theorem SValRel.mono {ρ ρ' : List (VarId × VarId)} {a b : SVal F} (ho' : OneToOne ρ')
    (h : SValRel ρ a b) (hs : ∀ p, p ∈ ρ → p ∈ ρ') : SValRel ρ' a b := by
  cases h with
  | plain v => exact .plain v
  | unc h => exact .unc (h.mono ho' hs)

theorem OptRel.mono {ρ ρ' : List (VarId × VarId)} {a b : Option (SVal F)} (ho' : OneToOne ρ')
    (h : OptRel (SValRel ρ) a b) (hs : ∀ p, p ∈ ρ → p ∈ ρ') : OptRel (SValRel ρ') a b := by
  cases h with
  | none => exact .none
  | some h => exact .some (h.mono ho' hs)

theorem envRel_mono {ρ ρ' : List (VarId × VarId)} {e e' : List (Option (SVal F))} (ho' : OneToOne ρ')
    (h : List.Forall₂ (OptRel (SValRel ρ)) e e') (hs : ∀ p, p ∈ ρ → p ∈ ρ') :
    List.Forall₂ (OptRel (SValRel ρ')) e e' := by
  induction h with
  | nil => exact .nil
  | cons h _ ih => exact .cons (h.mono ho' hs) ih

theorem envRel_get {ρ : List (VarId × VarId)} {e e' : List (Option (SVal F))}
    (h : List.Forall₂ (OptRel (SValRel ρ)) e e') (k : Nat) :
    OptRel (SValRel ρ) (e[k]?).join (e'[k]?).join := by
  induction h generalizing k with
  | nil => exact .none
  | cons h _ ih =>
    cases k with
    | zero => simpa using h
    | succ k => simpa using ih k

theorem Iso.seval {ρ : List (VarId × VarId)} {s t : SState F} (h : Iso ρ s t) (x : Arg F) :
    OptRel (SValRel ρ) (x.seval s.env) (x.seval t.env) := by
  cases x with
  | const v => exact .some (.plain v)
  | ref k => exact envRel_get h.env k

theorem Iso.sevalUnc {ρ : List (VarId × VarId)} {s t : SState F} (h : Iso ρ s t) (x : Arg F) :
    OptRel (SQRel ρ) (x.sevalUnc s.env) (x.sevalUnc t.env) := by
  have := h.seval x
  unfold Arg.sevalUnc
  revert this
  generalize x.seval s.env = a
  generalize x.seval t.env = b
  intro h
  cases h with
  | none => exact .none
  | some h =>
    cases h with
    | plain v => exact .none
    | unc h => exact .some h

theorem Iso.sevalKw {ρ : List (VarId × VarId)} {s t : SState F} (h : Iso ρ s t) (x : String × Arg F) :
    OptRel (fun p p' : String × SVal F => p.1 = p'.1 ∧ SValRel ρ p.2 p'.2) (Arg.sevalKw s.env x)
      (Arg.sevalKw t.env x) := by
  have := h.seval x.2
  unfold Arg.sevalKw
  revert this
  generalize x.2.seval s.env = a
  generalize x.2.seval t.env = b
  intro h
  cases h with
  | none => exact .none
  | some h => exact .some ⟨rfl, h⟩

theorem evalArgs_rel {α β : Type} {R : β → β → Prop} {ev ev' : α → Option β}
    (h : ∀ a, OptRel R (ev a) (ev' a)) (l : List α) :
    OptRel (List.Forall₂ R) (evalArgs ev l) (evalArgs ev' l) := by
  induction l with
  | nil => exact .some .nil
  | cons a l ih =>
    simp only [evalArgs]
    have ha := h a
    revert ha ih
    generalize ev a = x
    generalize ev' a = y
    generalize evalArgs ev l = u
    generalize evalArgs ev' l = v
    intro h1 h2
    cases h2 with
    | none => exact .none
    | some h2 =>
      cases h1 with
      | none => exact .none
      | some h1 => exact .some (.cons h2 h1)

/-- `ρ'` has all the pairs of `ρ`, and pairs for new variables on the right (numbers from `n` on). -/
structure RenGrows (n : Nat) (ρ ρ' : List (VarId × VarId)) : Prop where
  sub : ∀ p, p ∈ ρ → p ∈ ρ'
  fresh : ∀ p, p ∈ ρ' → p ∈ ρ ∨ n ≤ p.2

omit [PyMath F] in
theorem RenGrows.refl (n : Nat) (ρ : List (VarId × VarId)) : RenGrows n ρ ρ := ⟨fun _ h => h, fun _ h => .inl h⟩

/-- A step of two states that are the same up to a renaming. -/
def StepRel (n : Nat) (ρ : List (VarId × VarId)) (a b : SState F × Out F) : Prop :=
  ∃ ρ', RenGrows n ρ ρ' ∧ Iso ρ' a.1 b.1 ∧ Out.Same ρ' a.2 b.2

theorem StepRel.same {n : Nat} {ρ : List (VarId × VarId)} {s t : SState F} (h : Iso ρ s t) {o o' : Out F}
    (ho : Out.Same ρ o o') : StepRel n ρ (s, o) (t, o') :=
  ⟨ρ, .refl _ _, h, ho⟩

theorem Iso.invalid {m : Nat} {ρ : List (VarId × VarId)} {s t : SState F} (h : Iso ρ s t) (n : Nat) :
    StepRel m ρ (s.invalid n) (t.invalid n) := by
  refine ⟨ρ, .refl _ _, ⟨h.vars, h.fns, ?_⟩, rfl⟩
  refine List.rel_append h.env ?_
  induction n with
  | zero => exact .nil
  | succ n ih => rw [List.replicate_succ]; exact .cons .none ih

theorem Iso.append {ρ : List (VarId × VarId)} {s t : SState F} (h : Iso ρ s t)
    {a b : List (Option (SVal F))} (hab : List.Forall₂ (OptRel (SValRel ρ)) a b) :
    Iso ρ ⟨s.vars, s.fns, s.env ++ a⟩ ⟨t.vars, t.fns, t.env ++ b⟩ :=
  ⟨h.vars, h.fns, List.rel_append h.env hab⟩

theorem Iso.bind {n : Nat} {ρ : List (VarId × VarId)} {s t : SState F} (h : Iso ρ s t) {r r' : PyRes (SVal F)}
    (hr : ResRel (SValRel ρ) r r') : StepRel n ρ (s.bind r) (t.bind r') := by
  have hn : List.Forall₂ (OptRel (SValRel (F := F) ρ)) [none] [none] := .cons .none .nil
  cases hr with
  | error e => exact ⟨ρ, .refl _ _, h.append hn, rfl⟩
  | ok hr =>
    cases hr with
    | plain v =>
      have hs : List.Forall₂ (OptRel (SValRel ρ)) [some (.plain v)] [some (.plain v)] :=
        .cons (.some (.plain v)) .nil
      cases v with
      | notImpl => exact ⟨ρ, .refl _ _, h.append hn, rfl⟩
      | flt x => exact ⟨ρ, .refl _ _, h.append hs, rfl⟩
      | cplx => exact ⟨ρ, .refl _ _, h.append hs, rfl⟩
      | other n => exact ⟨ρ, .refl _ _, h.append hs, rfl⟩
    | unc hq => exact ⟨ρ, .refl _ _, h.append (.cons (.some (.unc hq)) .nil), rfl⟩

theorem Iso.read {n : Nat} {ρ : List (VarId × VarId)} {s t : SState F} (h : Iso ρ s t) (x : Arg F)
    {f f' : SQ F → Out F} (hf : ∀ q q', SQRel ρ q q' → Out.Same ρ (f q) (f' q')) :
    StepRel n ρ (s.read x f) (t.read x f') := by
  have := h.sevalUnc x
  unfold SState.read
  revert this
  generalize x.sevalUnc s.env = a
  generalize x.sevalUnc t.env = b
  intro ha
  cases ha with
  | none => exact h.invalid 0
  | some hq => exact .same h (hf _ _ hq)

theorem Out.Same.res {α : Type} (ρ : List (VarId × VarId)) (f : α → Out F) (hf : ∀ x l, f x ≠ .dict l)
    (r : PyRes α) : Out.Same ρ (PyRes.out f r) (PyRes.out f r) := by
  cases r with
  | error e => rfl
  | ok x => exact .of_eq (hf x)

/-- `b.__rop__(a)` -/
def reflectedBinop (op : BinOp) (a b : SVal F) : PyRes (SVal F) :=
  match b with
  | .plain _ => .error .typeError
  | .unc _ =>
    match specCall op.rwrapDef [b, a] [] with
    | .ok (.plain .notImpl) => .error .typeError
    | r => r

theorem specBinop_eq (op : BinOp) (a b : SVal F) : specBinop op a b =
    match a with
    | .plain _ => reflectedBinop op a b
    | .unc _ =>
      match specCall op.wrapDef [a, b] [] with
      | .ok (.plain .notImpl) => reflectedBinop op a b
      | r => r := rfl

theorem specBinop_ren {ρ : List (VarId × VarId)} (op : BinOp) {a a' b b' : SVal F}
    (ha : SValRel ρ a a') (hb : SValRel ρ b b') :
    ResRel (SValRel ρ) (specBinop op a b) (specBinop op a' b') := by
  have hrefl : ResRel (SValRel ρ) (reflectedBinop op a b) (reflectedBinop op a' b') := by
    unfold reflectedBinop
    have hc := specCall_ren (op.rwrapDef : WrapDef F) (.cons hb (.cons ha .nil)) .nil
    cases hb with
    | plain v => exact .error _
    | unc hq =>
      simp only []
      revert hc
      generalize specCall op.rwrapDef [_, a] [] = r
      generalize specCall op.rwrapDef [_, a'] [] = r'
      intro hc
      cases hc with
      | error e => exact .error e
      | ok h =>
        cases h with
        | unc h => exact .ok (.unc h)
        | plain v =>
          cases v with
          | notImpl => exact .error _
          | flt x => exact .ok (.plain _)
          | cplx => exact .ok (.plain _)
          | other n => exact .ok (.plain _)
  have hc := specCall_ren (op.wrapDef : WrapDef F) (.cons ha (.cons hb .nil)) .nil
  rw [specBinop_eq, specBinop_eq]
  cases ha with
  | plain v => exact hrefl
  | unc hq =>
    simp only []
    revert hc
    generalize specCall op.wrapDef [_, b] [] = r
    generalize specCall op.wrapDef [_, b'] [] = r'
    intro hc
    cases hc with
    | error e => exact .error e
    | ok h =>
      cases h with
      | unc h => exact .ok (.unc h)
      | plain v =>
        cases v with
        | notImpl => exact hrefl
        | flt x => exact .ok (.plain _)
        | cplx => exact .ok (.plain _)
        | other n => exact .ok (.plain _)

theorem specLdexp_ren {ρ : List (VarId × VarId)} (i : Int) {a a' : SVal F} (ha : SValRel ρ a a') :
    ResRel (SValRel ρ) (specLdexp i a) (specLdexp i a') := by
  cases ha with
  | plain v =>
    cases v with
    | flt x =>
      simp only [specLdexp]
      cases PyMath.ldexp x i with
      | error e => exact .error e
      | ok r => exact .ok (.plain _)
    | cplx => exact .error _
    | other _ => exact .error _
    | notImpl => exact .error _
  | unc hq =>
    rename_i q q'
    simp only [specLdexp, hq.nom]
    cases PyMath.ldexp q'.nom i with
    | error e => exact .error e
    | ok r =>
      refine .ok (.unc ⟨rfl, REq.comb (.cons ⟨rfl, hq.grad⟩ .nil), ?_, fun _ => rfl⟩)
      intro v h; cases h

theorem specLcst_ren {ρ : List (VarId × VarId)} (f : PyFn F) {args args' : List (SVal F)}
    (ha : List.Forall₂ (SValRel ρ) args args') {kwargs kwargs' : List (String × SVal F)}
    (hk : List.Forall₂ (fun p p' => p.1 = p'.1 ∧ SValRel ρ p.2 p'.2) kwargs kwargs') :
    ResRel (SValRel ρ) (specLcst f args kwargs) (specLcst f args' kwargs') := by
  have e1 : args.map SVal.nominal = args'.map SVal.nominal := by
    induction ha with
    | nil => rfl
    | cons h _ ih => simp [h.nominal, ih]
  have e2 : kwargs.map (fun p => (p.1, p.2.nominal)) = kwargs'.map (fun p => (p.1, p.2.nominal)) := by
    induction hk with
    | nil => rfl
    | cons h _ ih => simp [h.1, h.2.nominal, ih]
  simp only [specLcst, e1, e2]
  cases f (args'.map SVal.nominal) (kwargs'.map fun p => (p.1, p.2.nominal)) with
  | error e => exact .error e
  | ok v => exact .ok (.plain v)

variable [ExactLin F]

theorem specCompare_ren {ρ : List (VarId × VarId)} {vars vars' : List (SVar F)}
    (h : VarsRel ρ vars vars') (op : CmpOp) {a a' b b' : SVal F} (ha : SValRel ρ a a')
    (hb : SValRel ρ b b') : specCompare vars op a b = specCompare vars' op a' b' := by
  have hrun : ∀ (op : CmpOp) {q q' : SQ F} {b b' : SVal F}, SQRel ρ q q' → SValRel ρ b b' →
      specCmpRun vars op q b = specCmpRun vars' op q' b' := by
    intro op q q' b b' h1 h2
    simp only [specCmpRun, specCmpVal_ren h op h1 h2]
  cases ha with
  | plain v =>
    cases hb with
    | plain w => rfl
    | unc hq => exact hrun _ hq (.plain v)
  | unc hp =>
    cases hb with
    | plain w => exact hrun _ hp (.plain w)
    | unc hq =>
      simp only [specCompare, hp.isNone.1, hq.isNone.2, hrun op.swap hq (.unc hp),
        hrun op hp (.unc hq)]

theorem VarsRel.set {ρ : List (VarId × VarId)} {vars vars' : List (SVar F)}
    (h : VarsRel ρ vars vars') {v v' : VarId} (hv : (v, v') ∈ ρ) (f : SVar F → SVar F) :
    VarsRel ρ (vars.modify v f) (vars'.modify v' f) := by
  refine ⟨h.one, ?_, ?_⟩
  · intro u u' hu; simpa using h.lt u u' hu
  · intro u u' hu
    rw [List.getElem?_modify, List.getElem?_modify, h.eq u u' hu]
    by_cases e : v = u
    · subst e
      rw [h.one.left v u' v' hu hv]
      simp
    · have : v' ≠ u' := by
        rintro rfl
        exact e (h.one.right v' v u hv hu)
      simp [e, this]

theorem isConst_ren {ρ : List (VarId × VarId)} {vars vars' : List (SVar F)}
    (h : VarsRel ρ vars vars') {a a' : SVal F} (ha : SValRel ρ a a') :
    a.isConst vars.length = a'.isConst vars'.length := by
  cases ha with
  | plain v => rfl
  | @unc q q' hq =>
    simp only [SVal.isConst]
    congr 1
    rw [Bool.eq_iff_iff, List.any_eq_true, List.any_eq_true]
    constructor
    · rintro ⟨v, -, hv⟩
      obtain ⟨v', h'⟩ := hq.grad.left v (by intro e; simp [e] at hv)
      exact ⟨v', List.mem_range.mpr (h.lt _ _ h').2, by rw [← hq.grad.eq _ _ h']; exact hv⟩
    · rintro ⟨v', -, hv⟩
      obtain ⟨v, h'⟩ := hq.grad.right v' (by intro e; simp [e] at hv)
      exact ⟨v, List.mem_range.mpr (h.lt _ _ h').1, by rw [hq.grad.eq _ _ h']; exact hv⟩

theorem Iso.sevalItem {ρ : List (VarId × VarId)} {s t : SState F} (h : Iso ρ s t) (p : Arg F × F) :
    OptRel (fun a b => (a.1, b.1) ∈ ρ ∧ a.2 = b.2) (Arg.sevalItem s.env p)
      (Arg.sevalItem t.env p) := by
  have := h.sevalUnc p.1
  unfold Arg.sevalItem
  revert this
  generalize p.1.sevalUnc s.env = a
  generalize p.1.sevalUnc t.env = a'
  intro ha
  cases ha with
  | none => exact .none
  | @some q q' hq =>
    simp only [Option.bind_some]
    cases hv : q.var with
    | none => rw [hq.novar hv]; exact .none
    | some v =>
      obtain ⟨v', e, hm⟩ := hq.var v hv
      rw [e]
      exact .some ⟨hm, rfl⟩

theorem nodup_ren {ρ : List (VarId × VarId)} (ho : OneToOne ρ) {d d' : List (VarId × F)}
    (h : List.Forall₂ (fun a b => (a.1, b.1) ∈ ρ ∧ a.2 = b.2) d d') :
    (d.map Prod.fst).Nodup ↔ (d'.map Prod.fst).Nodup := by
  have key : ∀ {v v' : VarId} {d d' : List (VarId × F)}, (v, v') ∈ ρ →
      List.Forall₂ (fun a b => (a.1, b.1) ∈ ρ ∧ a.2 = b.2) d d' →
      (v ∈ d.map Prod.fst ↔ v' ∈ d'.map Prod.fst) := by
    intro v v' d d' hv h
    induction h with
    | nil => simp
    | @cons a b l l' hp _ ih =>
      simp only [List.map_cons, List.mem_cons, ih]
      have : v = a.1 ↔ v' = b.1 := by
        constructor
        · intro e; subst e; exact ho.left _ _ _ hv hp.1
        · intro e; subst e; exact ho.right _ _ _ hv hp.1
      rw [this]
  induction h with
  | nil => simp
  | cons hp ht ih => simp only [List.map_cons, List.nodup_cons, ih, key hp.1 ht]

theorem ofDict_ren {ρ : List (VarId × VarId)} (ho : OneToOne ρ) {d d' : List (VarId × F)}
    (h : List.Forall₂ (fun a b => (a.1, b.1) ∈ ρ ∧ a.2 = b.2) d d') :
    REq ρ (Lin.ofDict d) (Lin.ofDict d') := by
  induction h with
  | nil => exact ⟨fun _ _ _ => rfl, fun _ h => absurd rfl h, fun _ h => absurd rfl h⟩
  | @cons a b l l' hp ht ih =>
    obtain ⟨u, x⟩ := a
    obtain ⟨u', x'⟩ := b
    obtain ⟨h1, h2⟩ := hp
    simp only at h1 h2
    subst h2
    refine ⟨?_, ?_, ?_⟩
    · intro v v' hv
      have : v = u ↔ v' = u' := by
        constructor
        · intro e; subst e; exact ho.left _ _ _ hv h1
        · intro e; subst e; exact ho.right _ _ _ hv h1
      have e := ih.eq v v' hv
      simp only [Lin.ofDict] at e
      simp only [Lin.ofDict, lookup_cons, e, this]
    · intro v hv
      by_cases e : v = u
      · subst e; exact ⟨u', h1⟩
      · refine ih.left v ?_
        simpa [Lin.ofDict, lookup_cons, e] using hv
    · intro v hv
      by_cases e : v = u'
      · subst e; exact ⟨u, h1⟩
      · refine ih.right v ?_
        simpa [Lin.ofDict, lookup_cons, e] using hv

/-- The commands other than copies, and other than the access to a variable by its number. -/
theorem SState.step_ren {ρ : List (VarId × VarId)} {s t : SState F} (h : Iso ρ s t) (c : Cmd F)
    (hc : c.isCopy = false) (hv : c.isVariable = false) : StepRel t.vars.length ρ (s.step c) (t.step c) := by
  have hn : List.Forall₂ (OptRel (SValRel (F := F) ρ)) [none] [none] := .cons .none .nil
  cases c with
  | copy x => cases hc
  | deepcopy x => cases hc
  | pickle x => cases hc
  | «variable» x v => cases hv
  | ufloat n std tag =>
    simp only [SState.step]
    by_cases hb : specBadStd std = true
    · simp only [hb, if_true]
      exact ⟨ρ, .refl _ _, h.append hn, rfl⟩
    · simp only [hb]
      have ho : OneToOne ((s.vars.length, t.vars.length) :: ρ) := by
        refine ⟨?_, ?_⟩
        · intro v a b ha hb
          simp only [List.mem_cons, Prod.mk.injEq] at ha hb
          rcases ha with ⟨rfl, rfl⟩ | ha
          · rcases hb with ⟨-, rfl⟩ | hb
            · rfl
            · have := (h.vars.lt _ _ hb).1; omega
          · rcases hb with ⟨rfl, rfl⟩ | hb
            · have := (h.vars.lt _ _ ha).1; omega
            · exact h.vars.one.left v a b ha hb
        · intro v a b ha hb
          simp only [List.mem_cons, Prod.mk.injEq] at ha hb
          rcases ha with ⟨rfl, rfl⟩ | ha
          · rcases hb with ⟨rfl, -⟩ | hb
            · rfl
            · have := (h.vars.lt _ _ hb).2; omega
          · rcases hb with ⟨rfl, rfl⟩ | hb
            · have := (h.vars.lt _ _ ha).2; omega
            · exact h.vars.one.right v a b ha hb
      refine ⟨(s.vars.length, t.vars.length) :: ρ, ⟨fun p hp => by simp [hp], fun p hp => by
        rcases List.mem_cons.1 hp with rfl | hp
        · exact .inr le_rfl
        · exact .inl hp⟩, ⟨⟨ho, ?_, ?_⟩, h.fns, ?_⟩,
        rfl⟩
      · intro v v' hv
        simp only [List.mem_cons, Prod.mk.injEq] at hv
        simp only [Bool.false_eq_true, if_false, List.length_append, List.length_cons, List.length_nil]
        rcases hv with ⟨rfl, rfl⟩ | hv
        · omega
        · have := h.vars.lt _ _ hv; omega
      · intro v v' hv
        simp only [List.mem_cons, Prod.mk.injEq] at hv
        simp only [Bool.false_eq_true, if_false]
        rcases hv with ⟨rfl, rfl⟩ | hv
        · simp
        · have := h.vars.lt _ _ hv
          rw [List.getElem?_append_left this.1, List.getElem?_append_left this.2, h.vars.eq _ _ hv]
      · simp only [Bool.false_eq_true, if_false]
        refine List.rel_append (envRel_mono ho h.env (fun p hp => by simp [hp])) (.cons (.some (.unc
          ⟨rfl, REq.single ho (by simp), ?_, fun h => by cases h⟩)) .nil)
        intro v hv
        cases hv
        exact ⟨_, rfl, by simp⟩
  | affine n items =>
    simp only [SState.step]
    have ha := evalArgs_rel h.sevalItem items
    revert ha
    generalize evalArgs (Arg.sevalItem s.env) items = a
    generalize evalArgs (Arg.sevalItem t.env) items = a'
    intro ha
    cases ha with
    | none => exact h.invalid 1
    | some ha =>
      simp only [nodup_ren h.vars.one ha]
      split
      · refine ⟨ρ, .refl _ _, h.append (.cons (.some (.unc ⟨rfl, ofDict_ren h.vars.one ha, ?_,
          fun _ => rfl⟩)) .nil), rfl⟩
        intro v h; cases h
      · exact h.invalid 1
  | wrap df =>
    exact ⟨ρ, .refl _ _, ⟨h.vars, by simp [SState.step, h.fns], h.env⟩, rfl⟩
  | call f args kwargs =>
    simp only [SState.step, ← h.fns]
    cases s.fns[f]? with
    | none => exact h.invalid 1
    | some df =>
      simp only []
      have ha := evalArgs_rel h.seval args
      have hk := evalArgs_rel h.sevalKw kwargs
      revert ha hk
      generalize evalArgs (Arg.seval s.env) args = a
      generalize evalArgs (Arg.seval t.env) args = a'
      generalize evalArgs (Arg.sevalKw s.env) kwargs = k
      generalize evalArgs (Arg.sevalKw t.env) kwargs = k'
      intro ha hk
      cases ha with
      | none => exact h.invalid 1
      | some ha =>
        cases hk with
        | none => exact h.invalid 1
        | some hk => exact h.bind (specCall_ren df ha hk)
  | unop op x =>
    simp only [SState.step]
    have ha := h.sevalUnc x
    revert ha
    generalize x.sevalUnc s.env = a
    generalize x.sevalUnc t.env = a'
    intro ha
    cases ha with
    | none => exact h.invalid 1
    | some ha => exact h.bind (specCall_ren _ (.cons (.unc ha) .nil) .nil)
  | binop op x y =>
    simp only [SState.step]
    have ha := h.seval x
    have hb := h.seval y
    revert ha hb
    generalize x.seval s.env = a
    generalize x.seval t.env = a'
    generalize y.seval s.env = b
    generalize y.seval t.env = b'
    intro ha hb
    cases ha with
    | none => exact h.invalid 1
    | some ha =>
      cases hb with
      | none => exact h.invalid 1
      | some hb =>
        simp only [ha.isUnc, hb.isUnc]
        split
        · exact h.bind (specBinop_ren op ha hb)
        · exact h.invalid 1
  | modf x =>
    simp only [SState.step]
    have ha := h.seval x
    revert ha
    generalize x.seval s.env = a
    generalize x.seval t.env = a'
    intro ha
    have hnn : List.Forall₂ (OptRel (SValRel (F := F) ρ)) [none, none] [none, none] := .cons .none (.cons .none .nil)
    cases ha with
    | none => exact h.invalid 2
    | some ha =>
      simp only [isConst_ren h.vars ha]
      split
      · exact h.invalid 2
      cases ha with
      | plain v =>
        cases v with
        | flt x =>
          simp only [specModf]
          exact ⟨ρ, .refl _ _, h.append (.cons (.some (.plain _)) (.cons (.some (.plain _)) .nil)), rfl⟩
        | cplx => exact ⟨ρ, .refl _ _, h.append hnn, rfl⟩
        | other _ => exact ⟨ρ, .refl _ _, h.append hnn, rfl⟩
        | notImpl => exact ⟨ρ, .refl _ _, h.append hnn, rfl⟩
      | unc hq =>
        simp only [specModf, hq.nom]
        refine ⟨ρ, .refl _ _, h.append (.cons (.some (.unc ⟨rfl, hq.grad, ?_, fun _ => rfl⟩))
          (.cons (.some (.plain _)) .nil)), rfl⟩
        intro v h; cases h
  | ldexp x i =>
    simp only [SState.step]
    have ha := h.seval x
    revert ha
    generalize x.seval s.env = a
    generalize x.seval t.env = a'
    intro ha
    cases ha with
    | none => exact h.invalid 1
    | some ha =>
      simp only [isConst_ren h.vars ha]
      split
      · exact h.invalid 1
      · exact h.bind (specLdexp_ren i ha)
  | lcst f args kwargs =>
    simp only [SState.step]
    have ha := evalArgs_rel h.seval args
    have hk := evalArgs_rel h.sevalKw kwargs
    revert ha hk
    generalize evalArgs (Arg.seval s.env) args = a
    generalize evalArgs (Arg.seval t.env) args = a'
    generalize evalArgs (Arg.sevalKw s.env) kwargs = k
    generalize evalArgs (Arg.sevalKw t.env) kwargs = k'
    intro ha hk
    cases ha with
    | none => exact h.invalid 1
    | some ha =>
      cases hk with
      | none => exact h.invalid 1
      | some hk => exact h.bind (specLcst_ren f ha hk)
  | setStd x std =>
    simp only [SState.step]
    have ha := h.sevalUnc x
    revert ha
    generalize x.sevalUnc s.env = a
    generalize x.sevalUnc t.env = a'
    intro ha
    cases ha with
    | none => exact h.invalid 0
    | @some q q' hq =>
      simp only []
      cases hv : q.var with
      | none => simp only [hq.novar hv]; exact .same h rfl
      | some v =>
        obtain ⟨v', h1, h2⟩ := hq.var v hv
        simp only [h1]
        split
        · exact .same h rfl
        · exact ⟨ρ, .refl _ _, ⟨h.vars.set h2 _, h.fns, h.env⟩, rfl⟩
  | nominal x =>
    simp only [SState.step]
    have ha := h.seval x
    revert ha
    generalize x.seval s.env = a
    generalize x.seval t.env = a'
    intro ha
    cases ha with
    | none => exact h.invalid 0
    | some ha => simp only [ha.nominal]; exact .same h rfl
  | stdDev x =>
    simp only [SState.step]
    have ha := h.seval x
    revert ha
    generalize x.seval s.env = a
    generalize x.seval t.env = a'
    intro ha
    cases ha with
    | none => exact h.invalid 0
    | some ha =>
      cases ha with
      | plain v => exact .same h rfl
      | unc hq =>
        simp only [specStdDev_ren h.vars hq]
        exact .same h (.res ρ _ (by intros; simp) _)
  | s x =>
    refine h.read x (fun q q' hq => ?_)
    rw [specStd_ren h.vars hq.grad]
    exact .res ρ _ (by intros; simp) _
  | derivatives x => exact h.read x (fun q q' hq => hq.grad.renames)
  | errorComponents x =>
    exact h.read x (fun q q' hq => (specErrorComponents_ren h.vars hq.grad).renames)
  | stdScore x value =>
    refine h.read x (fun q q' hq => ?_)
    have : specStdScore s.vars q value = specStdScore t.vars q' value := by
      simp only [specStdScore, specStdDev_ren h.vars hq, hq.nom]
    rw [this]
    exact .res ρ _ (by intros; simp) _
  | covarianceMatrix xs =>
    simp only [SState.step]
    have ha := evalArgs_rel h.sevalUnc xs
    revert ha
    generalize evalArgs (Arg.sevalUnc s.env) xs = a
    generalize evalArgs (Arg.sevalUnc t.env) xs = a'
    intro ha
    cases ha with
    | none => exact h.invalid 0
    | @some l l' ha =>
      have hrow : ∀ (q q' : SQ F), SQRel ρ q q' → ∀ (l l' : List (SQ F)), List.Forall₂ (SQRel ρ) l l' →
          l.map (fun y => specCov s.vars q.grad y.grad) = l'.map (fun y => specCov t.vars q'.grad y.grad) := by
        intro q q' hq l l' hl
        induction hl with
        | nil => rfl
        | cons hp _ ih => simp only [List.map_cons, specCov_ren h.vars hq.grad hp.grad, ih]
      have hall : ∀ (m m' : List (SQ F)), List.Forall₂ (SQRel ρ) m m' →
          m.map (fun x => l.map fun y => specCov s.vars x.grad y.grad) =
          m'.map (fun x => l'.map fun y => specCov t.vars x.grad y.grad) := by
        intro m m' hm
        induction hm with
        | nil => rfl
        | cons hp _ ih => simp only [List.map_cons, hrow _ _ hp l l' ha, ih]
      simp only [hall l l' ha]
      exact .same h rfl
  | compare op x y =>
    simp only [SState.step]
    have ha := h.seval x
    have hb := h.seval y
    revert ha hb
    generalize x.seval s.env = a
    generalize x.seval t.env = a'
    generalize y.seval s.env = b
    generalize y.seval t.env = b'
    intro ha hb
    cases ha with
    | none => exact h.invalid 0
    | some ha =>
      cases hb with
      | none => exact h.invalid 0
      | some hb =>
        simp only [ha.isUnc, hb.isUnc, specCompare_ren h.vars op ha hb]
        split
        · exact .same h (.res ρ _ (by intros; simp) _)
        · exact h.invalid 0
  | toBool x =>
    refine h.read x (fun q q' hq => ?_)
    rw [specCmp_ren h.vars .ne hq (SQRel.exact ρ 0)]
    exact .res ρ _ (by intros; simp) _
  | tag x =>
    refine h.read x (fun q q' hq => ?_)
    have : specTag s.vars q = specTag t.vars q' := by
      unfold specTag
      cases hv : q.var with
      | none => simp [hq.novar hv]
      | some v =>
        obtain ⟨v', h1, h2⟩ := hq.var v hv
        simp only [h1, h.vars.eq v v' h2]
    rw [this]
    exact .res ρ _ (by intros; simp) _

/-- Correspondence between the copies of variables that correspond to each other. -/
def copyRen (ρ ρ1 ρ2 : List (VarId × VarId)) : List (VarId × VarId) :=
  ρ.flatMap fun p => (ρ1.filter (fun a => a.1 == p.1)).flatMap fun a =>
    (ρ2.filter (fun b => b.1 == p.2)).map fun b => (a.2, b.2)

theorem mem_copyRen {ρ ρ1 ρ2 : List (VarId × VarId)} {a b : VarId} :
    (a, b) ∈ copyRen ρ ρ1 ρ2 ↔ ∃ v v', (v, v') ∈ ρ ∧ (v, a) ∈ ρ1 ∧ (v', b) ∈ ρ2 := by
  simp only [copyRen, List.mem_flatMap, List.mem_map, List.mem_filter, beq_iff_eq, Prod.exists,
    Prod.mk.injEq]
  constructor
  · rintro ⟨v, v', h1, u, a', ⟨h2, rfl⟩, u', b', ⟨h3, rfl⟩, rfl, rfl⟩
    exact ⟨u, u', h1, h2, h3⟩
  · rintro ⟨v, v', h1, h2, h3⟩
    exact ⟨v, v', h1, v, a, ⟨h2, rfl⟩, v', b, ⟨h3, rfl⟩, rfl, rfl⟩

theorem SpecCopied.ren {ρ : List (VarId × VarId)} {s t s' t' : SState F} (h : Iso ρ s t)
    {qs rs : List (SQ F)} (hq : List.Forall₂ (SQRel ρ) qs rs) (hs : SpecCopied s s' qs)
    (ht : SpecCopied t t' rs) :
    ∃ ρ', RenGrows t.vars.length ρ ρ' ∧ Iso ρ' s' t' := by
  obtain ⟨ρ1, qs', c1, f1, e1⟩ := hs
  obtain ⟨ρ2, rs', c2, f2, e2⟩ := ht
  have ho : OneToOne (ρ ++ copyRen ρ ρ1 ρ2) := by
    refine ⟨?_, ?_⟩
    · intro v a b ha hb
      simp only [List.mem_append, mem_copyRen] at ha hb
      rcases ha with ha | ⟨u, u', a1, a2, a3⟩
      · rcases hb with hb | ⟨w, w', b1, b2, b3⟩
        · exact h.vars.one.left v a b ha hb
        · have := (h.vars.lt _ _ ha).1
          have := (c1.fresh _ _ b2).2.1
          omega
      · rcases hb with hb | ⟨w, w', b1, b2, b3⟩
        · have := (h.vars.lt _ _ hb).1
          have := (c1.fresh _ _ a2).2.1
          omega
        · have := c1.oneToOne.right v u w a2 b2
          subst this
          have := h.vars.one.left u u' w' a1 b1
          subst this
          exact c2.oneToOne.left u' a b a3 b3
    · intro v a b ha hb
      simp only [List.mem_append, mem_copyRen] at ha hb
      rcases ha with ha | ⟨u, u', a1, a2, a3⟩
      · rcases hb with hb | ⟨w, w', b1, b2, b3⟩
        · exact h.vars.one.right v a b ha hb
        · have := (h.vars.lt _ _ ha).2
          have := (c2.fresh _ _ b3).2.1
          omega
      · rcases hb with hb | ⟨w, w', b1, b2, b3⟩
        · have := (h.vars.lt _ _ hb).2
          have := (c2.fresh _ _ a3).2.1
          omega
        · have := c2.oneToOne.right v u' w' a3 b3
          subst this
          have := h.vars.one.right u' u w a1 b1
          subst this
          exact c1.oneToOne.left u a b a2 b2
  have hsub : ∀ p, p ∈ ρ → p ∈ ρ ++ copyRen ρ ρ1 ρ2 := fun p hp => List.mem_append_left _ hp
  have hfresh : ∀ p, p ∈ ρ ++ copyRen ρ ρ1 ρ2 → p ∈ ρ ∨ t.vars.length ≤ p.2 := by
    rintro ⟨a, b⟩ hp
    rcases List.mem_append.1 hp with hp | hp
    · exact .inl hp
    · obtain ⟨v, v', -, -, h3⟩ := mem_copyRen.1 hp
      exact .inr (c2.fresh _ _ h3).2.1
  refine ⟨ρ ++ copyRen ρ ρ1 ρ2, ⟨hsub, hfresh⟩, ⟨ho, ?_, ?_⟩, by rw [f1, f2, h.fns], ?_⟩
  · intro v v' hv
    obtain ⟨l1, hl1⟩ := c1.old
    obtain ⟨l2, hl2⟩ := c2.old
    rcases List.mem_append.mp hv with hv | hv
    · have := h.vars.lt _ _ hv
      rw [hl1, hl2]
      simp only [List.length_append]
      omega
    · obtain ⟨u, u', -, a2, a3⟩ := mem_copyRen.mp hv
      exact ⟨(c1.fresh _ _ a2).2.2.1, (c2.fresh _ _ a3).2.2.1⟩
  · intro v v' hv
    obtain ⟨l1, hl1⟩ := c1.old
    obtain ⟨l2, hl2⟩ := c2.old
    rcases List.mem_append.mp hv with hv | hv
    · have := h.vars.lt _ _ hv
      rw [hl1, hl2, List.getElem?_append_left this.1, List.getElem?_append_left this.2,
        h.vars.eq _ _ hv]
    · obtain ⟨u, u', a1, a2, a3⟩ := mem_copyRen.mp hv
      rw [(c1.fresh _ _ a2).2.2.2, (c2.fresh _ _ a3).2.2.2, h.vars.eq _ _ a1]
  · rw [e1, e2]
    refine List.rel_append (envRel_mono ho h.env hsub) ?_
    have hc1 := c1.copies
    have hc2 := c2.copies
    clear e1 e2 c1 c2
    induction hq generalizing qs' rs' with
    | nil =>
      cases hc1
      cases hc2
      exact .nil
    | @cons q r qs rs hq _ ih =>
      cases hc1 with
      | @cons _ q' _ qs' a hc1 =>
        cases hc2 with
        | @cons _ r' _ rs' b hc2 =>
          refine .cons (.some (.unc ⟨?_, Renames.req ho ⟨?_, ?_⟩, ?_, ?_⟩)) (ih _ _ hc1 hc2)
          · rw [a.1, b.1, hq.nom]
          · intro v x hx
            obtain ⟨u, u1, u2⟩ := a.2.1.back v x hx
            obtain ⟨w, w1, w2⟩ := hq.grad.renames.forth u x u2
            obtain ⟨z, z1, z2⟩ := b.2.1.forth w x w2
            exact ⟨z, List.mem_append_right _ (mem_copyRen.mpr ⟨u, w, w1, u1, z1⟩), z2⟩
          · intro v x hx
            obtain ⟨u, u1, u2⟩ := b.2.1.back v x hx
            obtain ⟨w, w1, w2⟩ := hq.grad.renames.back u x u2
            obtain ⟨z, z1, z2⟩ := a.2.1.forth w x w2
            exact ⟨z, List.mem_append_right _ (mem_copyRen.mpr ⟨w, u, w1, z1, u1⟩), z2⟩
          · intro v hv
            cases hqv : q.var with
            | none => rw [a.2.2.2 hqv] at hv; cases hv
            | some w =>
              obtain ⟨v', h1, h2⟩ := a.2.2.1 w hqv
              rw [h1] at hv
              cases hv
              obtain ⟨w', h3, h4⟩ := hq.var w hqv
              obtain ⟨z, h5, h6⟩ := b.2.2.1 w' h3
              exact ⟨z, h5, List.mem_append_right _ (mem_copyRen.mpr ⟨w, w', h4, h2, h6⟩)⟩
          · intro hv
            cases hqv : q.var with
            | none => exact b.2.2.2 (hq.novar hqv)
            | some w =>
              obtain ⟨v', h1, -⟩ := a.2.2.1 w hqv
              rw [h1] at hv
              cases hv


end

end Unc
