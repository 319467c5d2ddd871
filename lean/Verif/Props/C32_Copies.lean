import Verif.Lemmas.Iso2
import Verif.Py.ZN

/-
C32: copies of variables. C33: deep copies of quantities. C34: pickling.
-/

namespace Unc

set_option linter.unusedSectionVars false
set_option autoImplicit false

variable {F : Type} [PyMath F] [ExactLin F]

/-- `x` is a number with uncertainty, after the history `cs`. -/
def IsQuantity (cs : List (Cmd F)) (x : Arg F) : Prop := ∃ D, sees cs (.derivatives x) = .dict D

/-- `y` (after the history `cs'`) is independent from all the quantities that exist after the history
`cs`: no common variable, and zero covariances. -/
def IndependentFrom (cs cs' : List (Cmd F)) (y : Arg F) : Prop :=
  ∀ x D, sees cs (.derivatives x) = .dict D →
    (∃ D', sees cs' (.derivatives y) = .dict D' ∧ ∀ v, D v = none ∨ D' v = none) ∧
    ∃ M, sees cs' (.covarianceMatrix [x, y]) = .matrix M ∧ entry M 0 1 = some 0 ∧ entry M 1 0 = some 0

theorem SpecCopy.varsRel {vars vars' : List (SVar F)} {ρ : List (VarId × VarId)} {qs qs' : List (SQ F)}
    (h : SpecCopy vars vars' ρ qs qs') : VarsRel ρ vars vars' :=
  ⟨h.oneToOne, fun v v' hv => ⟨(h.fresh v v' hv).1, (h.fresh v v' hv).2.2.1⟩,
   fun v v' hv => (h.fresh v v' hv).2.2.2.symm⟩

theorem SpecCopy.rel {vars vars' : List (SVar F)} {ρ : List (VarId × VarId)} {qs qs' : List (SQ F)}
    (h : SpecCopy vars vars' ρ qs qs') : List.Forall₂ (SQRel ρ) qs qs' := by
  refine List.Forall₂.imp ?_ h.copies
  rintro q q' ⟨h1, h2, h3, h4⟩
  exact ⟨h1.symm, Renames.req h.oneToOne h2, h3, h4⟩

theorem SpecCopy.disjoint {vars vars' : List (SVar F)} {ρ : List (VarId × VarId)} {qs qs' : List (SQ F)}
    (h : SpecCopy vars vars' ρ qs qs') {q q' : SQ F} (hq : SQRel ρ q q') {l : Lin F}
    (hl : ∀ v x, l v = some x → v < vars.length) (v : VarId) : l v = none ∨ q'.grad v = none := by
  by_cases e : q'.grad v = none
  · exact Or.inr e
  · obtain ⟨u, hu⟩ := hq.grad.right v e
    left
    cases hx : l v with
    | none => rfl
    | some x =>
      have := hl v x hx
      have := (h.fresh u v hu).2.1
      omega

theorem specCov_disjoint {vars : List (SVar F)} {l k : Lin F} (h : ∀ v, l v = none ∨ k v = none) :
    specCov vars l k = 0 ∧ specCov vars k l = 0 := by
  constructor <;>
  · unfold specCov
    refine Eq.trans (sumVars_congr (φ := fun _ => 0) ?_) (sumVars_zero vars.length)
    intro v _
    rcases h v with e | e
    · simp [e]
    · simp [e]

/-- What is observed on a quantity that corresponds to another one. -/
theorem sees_rel {cs cs' : List (Cmd F)} {s s' : SState F} (h : Reaches cs s) (h' : Reaches cs' s')
    {ρ : List (VarId × VarId)} (hv : VarsRel ρ s.vars s'.vars) {x x' : Arg F} {q q' : SQ F}
    (hx : x.sevalUnc s.env = some q) (hx' : x'.sevalUnc s'.env = some q') (hq : SQRel ρ q q') :
    sees cs' (.nominal x') = sees cs (.nominal x) ∧ sees cs' (.stdDev x') = sees cs (.stdDev x) ∧
    sees cs' (.s x') = sees cs (.s x) ∧ sees cs' (.tag x') = sees cs (.tag x) := by
  have e1 : x.seval s.env = some (.unc q) := by
    simp only [Arg.sevalUnc] at hx
    split at hx
    · rename_i q0 h0; cases hx; exact h0
    · cases hx
  have e2 : x'.seval s'.env = some (.unc q') := by
    simp only [Arg.sevalUnc] at hx'
    split at hx'
    · rename_i q0 h0; cases hx'; exact h0
    · cases hx'
  refine ⟨?_, ?_, ?_, ?_⟩
  · rw [(h.read (c := .nominal x) rfl).1, (h'.read (c := .nominal x') rfl).1]
    simp only [SState.step, e1, e2, SVal.nominal, hq.nom]
  · rw [(h.read (c := .stdDev x) rfl).1, (h'.read (c := .stdDev x') rfl).1]
    simp only [SState.step, e1, e2, specStdDev_ren hv hq]
  · rw [(h.read (c := .s x) rfl).1, (h'.read (c := .s x') rfl).1]
    simp only [SState.step, SState.read, hx, hx', specStd_ren hv hq.grad]
  · rw [(h.read (c := .tag x) rfl).1, (h'.read (c := .tag x') rfl).1]
    simp only [SState.step, SState.read, hx, hx']
    congr 1
    unfold specTag
    cases hqv : q.var with
    | none => simp [hq.novar hqv]
    | some v =>
      obtain ⟨v', h1, h2⟩ := hq.var v hqv
      simp only [h1, hv.eq v v' h2]

theorem sees_derivatives {cs : List (Cmd F)} {s : SState F} (h : Reaches cs s) {x : Arg F} {q : SQ F}
    (hx : x.sevalUnc s.env = some q) : sees cs (.derivatives x) = .dict q.grad := by
  rw [(h.read (c := .derivatives x) rfl).1]
  simp only [SState.step, SState.read, hx]

theorem keyStd_eq {cs : List (Cmd F)} {s : SState F} (h : Reaches cs s) {x : Arg F} {q : SQ F}
    (hx : x.sevalUnc s.env = some q) {v : VarId} (hv : q.grad v ≠ none) :
    seesKeyStd cs x v = .val (.flt (((s.vars[v]?).map (·.std)).getD 0)) :=
  (h.quantity_exists hx).std v hv

theorem independent_of_disjoint {cs cs' : List (Cmd F)} {s s' : SState F} (h : Reaches cs s)
    (h' : Reaches cs' s') {l : List (Option (SVal F))} (he : s'.env = s.env ++ l) {y : Arg F} {q' : SQ F}
    (hy : y.sevalUnc s'.env = some q')
    (hd : ∀ k : Lin F, (∀ v x, k v = some x → v < s.vars.length) → ∀ v, k v = none ∨ q'.grad v = none) :
    IndependentFrom cs cs' y := by
  intro x D hD
  obtain ⟨q, h1, h2⟩ := h.derivatives hD
  have hk := h.wf.keys q (sevalUnc_mem h1)
  have h1' : x.sevalUnc s'.env = some q := by rw [he]; exact sevalUnc_append h1
  refine ⟨⟨q'.grad, sees_derivatives h' hy, ?_⟩, ?_⟩
  · rw [← h2]; exact hd q.grad hk
  · refine ⟨_, by
      rw [(h'.read (c := .covarianceMatrix [x, y]) rfl).1]
      simp only [SState.step, evalArgs, h1', hy]; rfl, ?_, ?_⟩
    · simp [entry, (specCov_disjoint (vars := s'.vars) (hd q.grad hk)).1]
    · simp [entry, (specCov_disjoint (vars := s'.vars) (hd q.grad hk)).2]

/-- **C33**. The deep copy of a quantity has the same nominal value and standard deviation. Its
derivatives are those of the original for new variables, that correspond one to one to the variables of
the original and have the same standard deviations. It is independent from all the existing
quantities. -/
theorem C33_deepcopy (cs : List (Cmd F)) (x : Arg F) (D : VarId → Option F)
    (hD : sees cs (.derivatives x) = .dict D) :
    sees cs (.deepcopy x) = .done ∧
    sees (cs ++ [.deepcopy x]) (.nominal (next cs)) = sees cs (.nominal x) ∧
    sees (cs ++ [.deepcopy x]) (.stdDev (next cs)) = sees cs (.stdDev x) ∧
    (∃ D' ρ, sees (cs ++ [.deepcopy x]) (.derivatives (next cs)) = .dict D' ∧
      OneToOne ρ ∧ Renames ρ D D' ∧
      ∀ v v', (v, v') ∈ ρ → D v ≠ none →
        seesKeyStd (cs ++ [.deepcopy x]) (next cs) v' = seesKeyStd cs x v) ∧
    IndependentFrom cs (cs ++ [.deepcopy x]) (next cs) := by
  obtain ⟨s, hs⟩ := Reaches.exists cs
  obtain ⟨q, h1, h2⟩ := hs.derivatives hD
  obtain ⟨s', h3, h4⟩ := hs.step (.deepcopy x)
  simp only [SpecStep, h1] at h3
  obtain ⟨hdone, ρ, qs', hcopy, hfns, henv⟩ := h3
  have hrel := hcopy.rel
  obtain ⟨q', hq', rfl⟩ : ∃ q', SQRel ρ q q' ∧ qs' = [q'] := by
    cases hrel with
    | cons a b => cases b; exact ⟨_, a, rfl⟩
  have hnext : (next cs).sevalUnc s'.env = some q' := by
    rw [henv]
    simp [next, Arg.sevalUnc, Arg.seval, ← hs.env_length]
  obtain ⟨a1, a2, -, -⟩ := sees_rel hs h4 hcopy.varsRel h1 hnext hq'
  refine ⟨hdone, a1, a2, ⟨q'.grad, ρ, sees_derivatives h4 hnext, hcopy.oneToOne, ?_, ?_⟩, ?_⟩
  · rw [← h2]; exact hq'.grad.renames
  · intro v v' hv hDv
    rw [← h2] at hDv
    rw [keyStd_eq h4 hnext (by rw [← hq'.grad.eq v v' hv]; exact hDv), keyStd_eq hs h1 hDv,
      (hcopy.fresh v v' hv).2.2.2]
  · exact independent_of_disjoint hs h4 henv hnext (fun k hk v => hcopy.disjoint hq' hk v)

/-- A copy command of a variable gives a new variable (used for C32). -/
theorem copy_variable (cs : List (Cmd F)) (x : Arg F) (t : Option String)
    (ht : sees cs (.tag x) = .tag t) (c : Cmd F) (hc : c = .copy x ∨ c = .deepcopy x) :
    ∃ s s' q v v', Reaches cs s ∧ Reaches (cs ++ [c]) s' ∧ sees cs c = .done ∧
      x.sevalUnc s.env = some q ∧ q.var = some v ∧
      (∃ ρ, VarsRel ρ s.vars s'.vars ∧ (v, v') ∈ ρ ∧ SQRel ρ q ⟨q.nom, Lin.single v', some v'⟩) ∧
      s.vars.length ≤ v' ∧
      s'.env = s.env ++ [some (.unc ⟨q.nom, Lin.single v', some v'⟩)] := by
  obtain ⟨s, hs⟩ := Reaches.exists cs
  rw [(hs.read (c := .tag x) rfl).1] at ht
  simp only [SState.step, SState.read] at ht
  split at ht
  · cases ht
  · rename_i q hq
    simp only [specTag] at ht
    cases hv : q.var with
    | none => simp [hv, PyRes.out] at ht
    | some v =>
      obtain ⟨s', h3, h4⟩ := hs.step c
      have h5 : sees cs c = .done ∧ SpecCopied s s' [q] := by
        rcases hc with rfl | rfl
        · simpa [SpecStep, hq, hv] using h3
        · simpa [SpecStep, hq] using h3
      obtain ⟨hdone, ρ, qs', hcopy, hfns, henv⟩ := h5
      have hrel := hcopy.rel
      obtain ⟨q', hq', rfl⟩ : ∃ q', SQRel ρ q q' ∧ qs' = [q'] := by
        cases hrel with
        | cons a b => cases b; exact ⟨_, a, rfl⟩
      obtain ⟨v', hv', hp⟩ := hq'.var v hv
      have hgrad := (hs.wf.var q (sevalUnc_mem hq) v hv).1
      have hwf' := h4.wf.var q' (by rw [henv]; simp) v' hv'
      have e : q' = ⟨q.nom, Lin.single v', some v'⟩ := by
        obtain ⟨n', g', o'⟩ := q'
        simp only at hv' hwf' ⊢
        rw [hv', hwf'.1, hq'.nom]
      subst e
      exact ⟨s, s', q, v, v', hs, h4, hdone, hq, hv, ⟨ρ, hcopy.varsRel, hp, hq'⟩,
        (hcopy.fresh v v' hp).2.1, henv⟩

/-- **C32**. A copy (`copy.copy` or `copy.deepcopy`) of a variable is a new variable with the same
nominal value, standard deviation and tag, which only depends on itself and is independent from all
the existing quantities. (Being a variable is having a tag.) -/
theorem C32_copy_variable (cs : List (Cmd F)) (x : Arg F) (t : Option String)
    (ht : sees cs (.tag x) = .tag t) (c : Cmd F) (hc : c = .copy x ∨ c = .deepcopy x) :
    sees cs c = .done ∧
    sees (cs ++ [c]) (.nominal (next cs)) = sees cs (.nominal x) ∧
    sees (cs ++ [c]) (.stdDev (next cs)) = sees cs (.stdDev x) ∧
    sees (cs ++ [c]) (.tag (next cs)) = .tag t ∧
    (∃ v', sees (cs ++ [c]) (.derivatives (next cs)) = .dict (fun u => if u = v' then some 1 else none)) ∧
    IndependentFrom cs (cs ++ [c]) (next cs) := by
  obtain ⟨s, s', q, v, v', hs, hs', hdone, hx, hv, ⟨ρ, hρ, hp, hq⟩, hfresh, henv⟩ :=
    copy_variable cs x t ht c hc
  have hnext : (next cs).sevalUnc s'.env = some ⟨q.nom, Lin.single v', some v'⟩ := by
    rw [henv]
    simp [next, Arg.sevalUnc, Arg.seval, ← hs.env_length]
  obtain ⟨a1, a2, -, a4⟩ := sees_rel hs hs' hρ hx hnext hq
  refine ⟨hdone, a1, a2, a4.trans ht, ⟨v', sees_derivatives hs' hnext⟩, ?_⟩
  refine independent_of_disjoint hs hs' henv hnext (fun k hk u => ?_)
  by_cases e : u = v'
  · left
    cases hu : k u with
    | none => rfl
    | some y => have := hk u y hu; omega
  · right; simp [Lin.single, e]

/-- **C32**. Later, whatever happens, updating the standard deviation of the copy does not change
that of the original, and conversely. -/
theorem C32_later_updates (cs : List (Cmd F)) (x : Arg F) (t : Option String)
    (ht : sees cs (.tag x) = .tag t) (c : Cmd F) (hc : c = .copy x ∨ c = .deepcopy x)
    (later : List (Cmd F)) (std : F) :
    sees (cs ++ [c] ++ later ++ [.setStd (next cs) std]) (.stdDev x) =
      sees (cs ++ [c] ++ later) (.stdDev x) ∧
    sees (cs ++ [c] ++ later ++ [.setStd x std]) (.stdDev (next cs)) =
      sees (cs ++ [c] ++ later) (.stdDev (next cs)) := by
  obtain ⟨s, s', q, v, v', hs, hs', hdone, hx, hv, ⟨ρ, hρ, hp, hq⟩, hfresh, henv⟩ :=
    copy_variable cs x t ht c hc
  have hnext : (next cs).sevalUnc s'.env = some ⟨q.nom, Lin.single v', some v'⟩ := by
    rw [henv]
    simp [next, Arg.sevalUnc, Arg.seval, ← hs.env_length]
  obtain ⟨s2, hs2, hlater⟩ := hs'.later later
  have hx' := hlater x q (by rw [henv]; exact sevalUnc_append hx)
  have hn' := hlater _ _ hnext
  have hne : v ≠ v' := by
    have := (hρ.lt v v' hp).1
    omega
  have key : ∀ (y z : Arg F) (p r : SQ F) (i j : VarId), y.sevalUnc s2.env = some p →
      z.sevalUnc s2.env = some r → p.var = some i → r.var = some j → i ≠ j →
      sees (cs ++ [c] ++ later ++ [.setStd y std]) (.stdDev z) = sees (cs ++ [c] ++ later) (.stdDev z) := by
    intro y z p r i j hy hz hpi hrj hij
    obtain ⟨-, hr⟩ := hs2.snoc (.setStd y std) rfl
    have hz2 : z.seval s2.env = some (.unc r) := by
      simp only [Arg.sevalUnc] at hz
      split at hz
      · rename_i q0 h0; cases hz; exact h0
      · cases hz
    rw [(hr.read (c := .stdDev z) rfl).1, (hs2.read (c := .stdDev z) rfl).1]
    by_cases hb : specBadStd std = true
    · simp only [SState.step, hy, hpi, hb, if_true]
    · simp only [SState.step, hy, hpi, hb, hz2, specStdDev, hrj]
      simp [List.getElem?_modify, hij, hz2, hrj]
  exact ⟨key _ _ _ _ v' v hn' hx' rfl hv (Ne.symm hne), key _ _ _ _ v v' hx' hn' hv rfl hne⟩

/-- How to refer to the values bound by the command that follows the history `cs`, if it binds `n`
values. -/
def nexts (cs : List (Cmd F)) (n : Nat) : List (Arg F) :=
  (List.range n).map fun i => .ref ((after cs).env.length + i)

theorem evalArgs_nexts_aux {s' : SState F} {env : List (Option (SVal F))} (qs : List (SQ F)) (n : Nat)
    (hn : n = env.length) (henv : s'.env = env ++ qs.map (fun q => some (.unc q))) :
    evalArgs (Arg.sevalUnc s'.env) ((List.range qs.length).map fun i => .ref (n + i)) = some qs := by
  induction qs generalizing n env with
  | nil => rfl
  | cons q qs ih =>
    have h0 : (Arg.ref (n + 0)).sevalUnc s'.env = some q := by
      rw [henv]
      simp [Arg.sevalUnc, Arg.seval, hn]
    have h1 := ih (env := env ++ [some (.unc q)]) (n + 1) (by simp [hn]) (by rw [henv]; simp)
    rw [List.length_cons, List.range_succ_eq_map, List.map_cons, List.map_map]
    have e : (fun i => (Arg.ref (n + i) : Arg F)) ∘ Nat.succ = fun i => Arg.ref (n + 1 + i) := by
      funext i
      simp only [Function.comp]
      congr 1
      omega
    rw [e]
    simp only [evalArgs, h0, h1]

theorem evalArgs_get {α β : Type} {ev : α → Option β} {l : List α} {vs : List β}
    (h : evalArgs ev l = some vs) {i : Nat} {a : α} (ha : l[i]? = some a) :
    ∃ v, vs[i]? = some v ∧ ev a = some v := by
  induction l generalizing vs i with
  | nil => simp at ha
  | cons b l ih =>
    simp only [evalArgs] at h
    split at h
    · cases h
    · rename_i v hv
      split at h
      · cases h
      · rename_i vs' hvs
        cases h
        cases i with
        | zero => simp at ha; subst ha; exact ⟨v, rfl, hv⟩
        | succ i => simpa using ih hvs (by simpa using ha)

/-- **C34**. Unpickling a list of quantities that were pickled together gives quantities with the same
nominal values, standard deviations and tags, the same covariances with each other, and the same
results of comparisons with each other. They are independent from all the existing quantities. -/
theorem C34_pickle (cs : List (Cmd F)) (xs : List (Arg F)) (hq : ∀ x ∈ xs, IsQuantity cs x) :
    sees cs (.pickle xs) = .done ∧
    (∀ (i : Nat) (x : Arg F), xs[i]? = some x → ∃ y, (nexts cs xs.length)[i]? = some y ∧
      sees (cs ++ [.pickle xs]) (.nominal y) = sees cs (.nominal x) ∧
      sees (cs ++ [.pickle xs]) (.stdDev y) = sees cs (.stdDev x) ∧
      sees (cs ++ [.pickle xs]) (.tag y) = sees cs (.tag x) ∧
      IndependentFrom cs (cs ++ [.pickle xs]) y) ∧
    sees (cs ++ [.pickle xs]) (.covarianceMatrix (nexts cs xs.length)) = sees cs (.covarianceMatrix xs) ∧
    (∀ (i j : Nat) (x x' y y' : Arg F) (op : CmpOp), xs[i]? = some x → xs[j]? = some x' →
      (nexts cs xs.length)[i]? = some y → (nexts cs xs.length)[j]? = some y' →
      sees (cs ++ [.pickle xs]) (.compare op y y') = sees cs (.compare op x x')) := by
  obtain ⟨s, hs⟩ := Reaches.exists cs
  obtain ⟨qs, hqs⟩ : ∃ qs, evalArgs (Arg.sevalUnc s.env) xs = some qs := by
    have : ∀ l : List (Arg F), (∀ x ∈ l, IsQuantity cs x) → ∃ qs, evalArgs (Arg.sevalUnc s.env) l = some qs := by
      intro l hl
      induction l with
      | nil => exact ⟨[], rfl⟩
      | cons x l ih =>
        obtain ⟨qs, h1⟩ := ih (fun x hx => hl x (by simp [hx]))
        obtain ⟨D, hD⟩ := hl x (by simp)
        obtain ⟨q, h2, -⟩ := hs.derivatives hD
        exact ⟨q :: qs, by simp only [evalArgs, h1, h2]⟩
    exact this xs hq
  obtain ⟨s', h3, h4⟩ := hs.step (.pickle xs)
  simp only [SpecStep, hqs] at h3
  obtain ⟨hdone, ρ, qs', hcopy, hfns, henv⟩ := h3
  have hrel := hcopy.rel
  have hlen : xs.length = qs'.length := by
    rw [← hrel.length_eq]
    exact (evalArgs_length hqs).symm
  have hn : evalArgs (Arg.sevalUnc s'.env) (nexts cs xs.length) = some qs' := by
    rw [hlen]
    exact evalArgs_nexts_aux qs' _ hs.env_length.symm henv
  have hget : ∀ (i : Nat) (x y : Arg F), xs[i]? = some x → (nexts cs xs.length)[i]? = some y →
      ∃ q q', x.sevalUnc s.env = some q ∧ y.sevalUnc s'.env = some q' ∧ SQRel ρ q q' := by
    intro i x y hx hy
    obtain ⟨q, a1, a2⟩ := evalArgs_get hqs hx
    obtain ⟨q', b1, b2⟩ := evalArgs_get hn hy
    obtain ⟨_, rfl⟩ := List.getElem?_eq_some_iff.mp a1
    obtain ⟨_, rfl⟩ := List.getElem?_eq_some_iff.mp b1
    exact ⟨_, _, a2, b2, hrel.get (by assumption) (by assumption)⟩
  refine ⟨hdone, ?_, ?_, ?_⟩
  · intro i x hx
    have hlt : i < xs.length := (List.getElem?_eq_some_iff.mp hx).1
    have hy : (nexts cs xs.length)[i]? = some (.ref ((after cs).env.length + i)) := by
      simp [nexts, hlt]
    obtain ⟨q, q', c1, c2, c3⟩ := hget i x _ hx hy
    obtain ⟨a1, a2, -, a4⟩ := sees_rel hs h4 hcopy.varsRel c1 c2 c3
    exact ⟨_, hy, a1, a2, a4,
      independent_of_disjoint hs h4 henv c2 (fun k hk v => hcopy.disjoint c3 hk v)⟩
  · rw [(hs.read (c := .covarianceMatrix xs) rfl).1,
      (h4.read (c := .covarianceMatrix (nexts cs xs.length)) rfl).1]
    simp only [SState.step, hn, hqs]
    have hrow : ∀ (q q' : SQ F), SQRel ρ q q' → ∀ (l l' : List (SQ F)), List.Forall₂ (SQRel ρ) l l' →
        l'.map (fun y => specCov s'.vars q'.grad y.grad) = l.map (fun y => specCov s.vars q.grad y.grad) := by
      intro q q' hq l l' hl
      induction hl with
      | nil => rfl
      | cons hp _ ih => simp only [List.map_cons, specCov_ren hcopy.varsRel hq.grad hp.grad, ih]
    have hall : ∀ (m m' : List (SQ F)), List.Forall₂ (SQRel ρ) m m' →
        m'.map (fun x => qs'.map fun y => specCov s'.vars x.grad y.grad) =
        m.map (fun x => qs.map fun y => specCov s.vars x.grad y.grad) := by
      intro m m' hm
      induction hm with
      | nil => rfl
      | cons hp _ ih => simp only [List.map_cons, hrow _ _ hp _ _ hrel, ih]
    rw [hall _ _ hrel]
  · intro i j x x' y y' op hx hx' hy hy'
    obtain ⟨q, q', c1, c2, c3⟩ := hget i x y hx hy
    obtain ⟨p, p', d1, d2, d3⟩ := hget j x' y' hx' hy'
    have ev : ∀ {e : List (Option (SVal F))} {x : Arg F} {q : SQ F}, x.sevalUnc e = some q →
        x.seval e = some (.unc q) := by
      intro e x q h
      simp only [Arg.sevalUnc] at h
      split at h
      · rename_i q0 h0; cases h; exact h0
      · cases h
    rw [(hs.read (c := .compare op x x') rfl).1, (h4.read (c := .compare op y y') rfl).1]
    simp only [SState.step, ev c1, ev c2, ev d1, ev d2, SVal.isUnc, Bool.or_self, if_true,
      specCompare_ren hcopy.varsRel op (.unc c3) (.unc d3)]

/-! Example: `x`, `y`, `p = x*y`, `r = p + x`, with `p` read before. -/

def exC32 : List (Cmd ZN) :=
  [.ufloat (.fin 3) (.fin 1) (some "x"), .ufloat (.fin 5) (.fin 2) none, .binop .mul (.ref 0) (.ref 1),
   .stdDev (.ref 2), .binop .add (.ref 2) (.ref 0)]

example : sees exC32 (.derivatives (.ref 3)) = .dict (fun v => [(0, ZN.fin 6), (1, ZN.fin 3)].lookup v) ∧
    sees exC32 (.tag (.ref 0)) = .tag (some "x") ∧
    (∀ x ∈ [Arg.ref 3, .ref 0], IsQuantity exC32 x) ∧
    sees (exC32 ++ [.pickle [.ref 3, .ref 0]]) (.nominal (.ref 4)) = .val (.flt (ZN.fin 18)) := by
  refine ⟨rfl, rfl, ?_, rfl⟩
  intro x hx
  simp only [List.mem_cons, List.not_mem_nil, or_false] at hx
  rcases hx with rfl | rfl
  · exact ⟨_, rfl⟩
  · exact ⟨_, rfl⟩

end Unc
