import Verif.Spec.Resume
import Verif.Lemmas.CovReal
import Verif.Lemmas.Weave2
import Mathlib.Data.Option.Basic
import Mathlib.Algebra.BigOperators.Ring.Finset

/-
The same calculation on numbers of two programs: the gradients of the results are the same linear combinations of the gradients
of the numbers.
-/

namespace Unc

set_option autoImplicit false

open NR Finset

/-- No derivative is NaN. -/
def NoNan (g : Lin NR) : Prop := ∀ v, g v ≠ some nan

/-- Same linear combination of `X` and `Y`. -/
structure GRel {n : ℕ} (X Y : Fin n → Lin NR) (a b : Lin NR) : Prop where
  nanA : NoNan a
  nanB : NoNan b
  supA : ∀ v, a v ≠ none → ∃ i, X i v ≠ none
  supB : ∀ v, b v ≠ none → ∃ i, Y i v ≠ none
  comb : ∃ c : Fin n → ℝ, (∀ v, coef (a v) = ∑ i, c i * coef (X i v)) ∧ ∀ v, coef (b v) = ∑ i, c i * coef (Y i v)

/-- Same value, for what can be seen without looking at the variables. -/
inductive VRel {n : ℕ} (X Y : Fin n → Lin NR) : SVal NR → SVal NR → Prop where
  | plain (v : PyVal NR) : VRel X Y (.plain v) (.plain v)
  | unc {p q : SQ NR} (hn : p.nom = q.nom) (hk : ∃ v, p.grad v ≠ none) (hg : GRel X Y p.grad q.grad) : VRel X Y (.unc p) (.unc q)

variable {n : ℕ} {X Y : Fin n → Lin NR}

theorem VRel.nominal {a b : SVal NR} (h : VRel X Y a b) : a.nominal = b.nominal := by
  cases h with
  | plain v => rfl
  | unc hn _ _ => simp [SVal.nominal, hn]

theorem VRel.isUnc {a b : SVal NR} (h : VRel X Y a b) : a.isUnc = b.isUnc := by cases h <;> rfl

theorem optAdd_nan {a b : Option NR} (h : optAdd a b ≠ some nan) : a ≠ some nan ∧ b ≠ some nan := by
  constructor
  · rintro rfl
    cases b <;> exact h rfl
  · rintro rfl
    cases a with
    | none => exact h rfl
    | some a => exact h (by simp [optAdd])

theorem coef_optAdd {a b : Option NR} (ha : a ≠ some nan) (hb : b ≠ some nan) : coef (optAdd a b) = coef a + coef b := by
  cases a with
  | none => simp [optAdd]
  | some a =>
    cases a with
    | nan => exact absurd rfl ha
    | fin x =>
      cases b with
      | none => simp [optAdd]
      | some b =>
        cases b with
        | nan => exact absurd rfl hb
        | fin y => simp [optAdd]

theorem coef_smul (r : ℝ) {a : Option NR} (ha : a ≠ some nan) : coef (a.map (fin r * ·)) = r * coef a := by
  cases a with
  | none => simp
  | some a =>
    cases a with
    | nan => exact absurd rfl ha
    | fin x => simp

theorem smul_noNan (r : ℝ) {a : Lin NR} (ha : NoNan a) : NoNan (Lin.smul (fin r) a) := by
  intro v
  have := ha v
  unfold Lin.smul
  cases h : a v with
  | none => simp
  | some x =>
    cases x with
    | nan => exact absurd h this
    | fin x => simp

theorem optAdd_noNan {a b : Option NR} (ha : a ≠ some nan) (hb : b ≠ some nan) : optAdd a b ≠ some nan := by
  cases a with
  | none => exact hb
  | some a =>
    cases a with
    | nan => exact absurd rfl ha
    | fin x =>
      cases b with
      | none => simp [optAdd]
      | some b =>
        cases b with
        | nan => exact absurd rfl hb
        | fin y => simp [optAdd]

/-- Related terms of a linear combination. -/
def TRel (X Y : Fin n → Lin NR) (a b : NR × Lin NR) : Prop := a.1 = b.1 ∧ (∃ v, a.2 v ≠ none) ∧ GRel X Y a.2 b.2

theorem comb_rel {l l' : List (NR × Lin NR)} (h : List.Forall₂ (TRel X Y) l l') (hn : NoNan (Lin.comb l)) :
    GRel X Y (Lin.comb l) (Lin.comb l') := by
  induction h with
  | nil =>
    exact ⟨fun v h => by simp [Lin.comb, Lin.zero] at h, fun v h => by simp [Lin.comb, Lin.zero] at h,
      fun v h => absurd rfl h, fun v h => absurd rfl h, fun _ => 0, fun v => by simp [Lin.comb, Lin.zero],
      fun v => by simp [Lin.comb, Lin.zero]⟩
  | @cons a b l l' hab hl ih =>
    obtain ⟨c, g⟩ := a
    obtain ⟨c', g'⟩ := b
    obtain ⟨hc, ⟨v0, hv0⟩, hg⟩ := hab
    simp only at hc hv0 hg
    subst hc
    have h1 : NoNan (Lin.smul c g) := fun v => (optAdd_nan (hn v)).1
    have h2 : NoNan (Lin.comb l) := fun v => (optAdd_nan (hn v)).2
    obtain ⟨r, rfl⟩ : ∃ r, c = fin r := by
      cases c with
      | fin r => exact ⟨r, rfl⟩
      | nan =>
        obtain ⟨d, hd⟩ := Option.ne_none_iff_exists'.1 hv0
        exact absurd (by simp [Lin.smul, hd]) (h1 v0)
    have ih := ih h2
    obtain ⟨α, hα, hα'⟩ := hg.comb
    obtain ⟨β, hβ, hβ'⟩ := ih.comb
    refine ⟨hn, fun v => optAdd_noNan (smul_noNan r hg.nanB v) (ih.nanB v), fun v hv => ?_, fun v hv => ?_,
      fun i => r * α i + β i, fun v => ?_, fun v => ?_⟩
    · by_cases hgv : g v = none
      · refine ih.supA v fun h => hv ?_
        simp [Lin.comb, Lin.add, Lin.smul, hgv, h, optAdd]
      · exact hg.supA v hgv
    · by_cases hgv : g' v = none
      · refine ih.supB v fun h => hv ?_
        simp [Lin.comb, Lin.add, Lin.smul, hgv, h, optAdd]
      · exact hg.supB v hgv
    · simp only [Lin.comb, Lin.add]
      rw [coef_optAdd (h1 v) (h2 v), hβ v]
      simp only [Lin.smul]
      rw [coef_smul r (hg.nanA v), hα v, mul_sum, ← sum_add_distrib]
      exact sum_congr rfl fun i _ => by ring
    · simp only [Lin.comb, Lin.add]
      rw [coef_optAdd (smul_noNan r hg.nanB v) (ih.nanB v), hβ' v]
      simp only [Lin.smul]
      rw [coef_smul r (hg.nanB v), hα' v, mul_sum, ← sum_add_distrib]
      exact sum_congr rfl fun i _ => by ring

theorem comb_key {l : List (NR × Lin NR)} {a : NR × Lin NR} (ha : a ∈ l) (hk : ∃ v, a.2 v ≠ none) : ∃ v, Lin.comb l v ≠ none := by
  obtain ⟨v, hv⟩ := hk
  obtain ⟨d, hd⟩ := Option.ne_none_iff_exists'.1 hv
  refine ⟨v, ?_⟩
  induction l with
  | nil => cases ha
  | cons b l ih =>
    obtain ⟨c, g⟩ := b
    rcases List.mem_cons.1 ha with rfl | h
    · simp only [Lin.comb, Lin.add, Lin.smul] at hd ⊢
      rw [hd]
      cases Lin.comb l v <;> simp [optAdd]
    · have := ih h
      obtain ⟨e, he⟩ := Option.ne_none_iff_exists'.1 this
      simp only [Lin.comb, Lin.add, he]
      cases Lin.smul c g v <;> simp [optAdd]

/-! ### Calls -/

/-- Same outcome. -/
inductive PRel (X Y : Fin n → Lin NR) : PyRes (SVal NR) → PyRes (SVal NR) → Prop where
  | error (e : PyErr) : PRel X Y (.error e) (.error e)
  | ok {a b : SVal NR} (h : VRel X Y a b) : PRel X Y (.ok a) (.ok b)

/-- Related keyword arguments. -/
def KRel (X Y : Fin n → Lin NR) (a b : String × SVal NR) : Prop := a.1 = b.1 ∧ VRel X Y a.2 b.2

theorem nominals_rel {a b : List (SVal NR)} (h : List.Forall₂ (VRel X Y) a b) : a.map SVal.nominal = b.map SVal.nominal := by
  induction h with
  | nil => rfl
  | cons h _ ih => simp [h.nominal, ih]

theorem kwNominals_rel {a b : List (String × SVal NR)} (h : List.Forall₂ (KRel X Y) a b) :
    a.map (fun p => (p.1, p.2.nominal)) = b.map (fun p => (p.1, p.2.nominal)) := by
  induction h with
  | nil => rfl
  | cons h _ ih => simp [h.1, h.2.nominal, ih]

theorem allPlain_rel {a b : List (SVal NR)} (h : List.Forall₂ (VRel X Y) a b) :
    a.all (fun a => !a.isUnc) = b.all (fun a => !a.isUnc) := by
  induction h with
  | nil => rfl
  | cons h _ ih => simp only [List.all_cons, h.isUnc, ih]

theorem kwAllPlain_rel {a b : List (String × SVal NR)} (h : List.Forall₂ (KRel X Y) a b) :
    a.all (fun p => !p.2.isUnc) = b.all (fun p => !p.2.isUnc) := by
  induction h with
  | nil => rfl
  | cons h _ ih => simp only [List.all_cons, h.2.isUnc, ih]

/-- Related lists of terms, or the same exception; no term only if there is no uncertainty. -/
inductive ValsRel (X Y : Fin n → Lin NR) : PyRes (List (NR × Lin NR)) → PyRes (List (NR × Lin NR)) → Prop where
  | error (e : PyErr) : ValsRel X Y (.error e) (.error e)
  | ok {l l' : List (NR × Lin NR)} (h : List.Forall₂ (TRel X Y) l l') : ValsRel X Y (.ok l) (.ok l')

theorem posTerms_rel (df : WrapDef NR) (av : List (PyVal NR)) (kv : KwArgs NR) {a b : List (SVal NR)}
    (h : List.Forall₂ (VRel X Y) a b) (pos : ℕ) : ValsRel X Y (specPosTerms df av kv pos a) (specPosTerms df av kv pos b) := by
  induction h generalizing pos with
  | nil => exact .ok .nil
  | cons h _ ih =>
    cases h with
    | plain v => exact ih (pos + 1)
    | unc hn hk hg =>
      simp only [specPosTerms]
      cases df.specPos pos av kv with
      | error e => exact .error e
      | ok c =>
        have := ih (pos + 1)
        revert this
        generalize specPosTerms df av kv (pos + 1) _ = r
        generalize specPosTerms df av kv (pos + 1) _ = r'
        intro this
        cases this with
        | error e => exact .error e
        | ok hl => exact .ok (.cons ⟨rfl, hk, hg⟩ hl)

theorem kwTerms_rel (df : WrapDef NR) (av : List (PyVal NR)) (kv : KwArgs NR) {a b : List (String × SVal NR)}
    (h : List.Forall₂ (KRel X Y) a b) : ValsRel X Y (specKwTerms df av kv a) (specKwTerms df av kv b) := by
  induction h with
  | nil => exact .ok .nil
  | @cons p q l l' h _ ih =>
    obtain ⟨name, v⟩ := p
    obtain ⟨name', v'⟩ := q
    obtain ⟨h0, h⟩ := h
    simp only at h0 h
    subst h0
    cases h with
    | plain v => exact ih
    | unc hn hk hg =>
      simp only [specKwTerms]
      cases df.specKw name av kv with
      | error e => exact .error e
      | ok c =>
        revert ih
        generalize specKwTerms df av kv l = r
        generalize specKwTerms df av kv l' = r'
        intro ih
        cases ih with
        | error e => exact .error e
        | ok hl => exact .ok (.cons ⟨rfl, hk, hg⟩ hl)

theorem posTerms_nil {df : WrapDef NR} {av : List (PyVal NR)} {kv : KwArgs NR} {a : List (SVal NR)} {pos : ℕ}
    (h : specPosTerms df av kv pos a = .ok []) : a.all (fun a => !a.isUnc) = true := by
  induction a generalizing pos with
  | nil => rfl
  | cons v a ih =>
    cases v with
    | plain v => simpa [SVal.isUnc] using ih h
    | unc q =>
      simp only [specPosTerms] at h
      split at h
      · cases h
      · split at h <;> cases h

theorem kwTerms_nil {df : WrapDef NR} {av : List (PyVal NR)} {kv : KwArgs NR} {a : List (String × SVal NR)}
    (h : specKwTerms df av kv a = .ok []) : a.all (fun p => !p.2.isUnc) = true := by
  induction a with
  | nil => rfl
  | cons v a ih =>
    obtain ⟨name, v⟩ := v
    cases v with
    | plain v => simpa [SVal.isUnc] using ih h
    | unc q =>
      simp only [specKwTerms] at h
      split at h
      · cases h
      · split at h <;> cases h

theorem specCall_rel (df : WrapDef NR) {a b : List (SVal NR)} {ka kb : List (String × SVal NR)}
    (h : List.Forall₂ (VRel X Y) a b) (hk : List.Forall₂ (KRel X Y) ka kb)
    (hn : ∀ q, specCall df a ka = .ok (.unc q) → NoNan q.grad) : PRel X Y (specCall df a ka) (specCall df b kb) := by
  unfold specCall at hn ⊢
  rw [← nominals_rel h, ← kwNominals_rel hk, ← allPlain_rel h, ← kwAllPlain_rel hk]
  simp only at hn ⊢
  cases hf : df.f (a.map SVal.nominal) (ka.map fun p => (p.1, p.2.nominal)) with
  | error e => exact .error e
  | ok v =>
    simp only [hf] at hn ⊢
    by_cases hp : (a.all (fun a => !a.isUnc) && ka.all (fun p => !p.2.isUnc)) = true
    · simp only [hp, if_true]
      exact .ok (.plain v)
    · simp only [hp] at hn ⊢
      by_cases hv : (!v.floatLike) = true
      · simp only [hv, if_true, Bool.false_eq_true, if_false]
        exact .ok (.plain _)
      · simp only [hv, Bool.false_eq_true, if_false] at hn ⊢
        have h1 := posTerms_rel df (a.map SVal.nominal) (ka.map fun p => (p.1, p.2.nominal)) h 0
        have h2 := kwTerms_rel df (a.map SVal.nominal) (ka.map fun p => (p.1, p.2.nominal)) hk
        cases e1 : specPosTerms df (a.map SVal.nominal) (ka.map fun p => (p.1, p.2.nominal)) 0 a with
        | error e =>
          rw [e1] at h1
          generalize specPosTerms df (a.map SVal.nominal) (ka.map fun p => (p.1, p.2.nominal)) 0 b = r at h1 ⊢
          cases h1
          exact .error e
        | ok l1 =>
          rw [e1] at h1
          generalize specPosTerms df (a.map SVal.nominal) (ka.map fun p => (p.1, p.2.nominal)) 0 b = r at h1 ⊢
          cases h1 with
          | @ok _ l1' g1 =>
          simp only [e1] at hn ⊢
          cases e2 : specKwTerms df (a.map SVal.nominal) (ka.map fun p => (p.1, p.2.nominal)) ka with
          | error e =>
            rw [e2] at h2
            generalize specKwTerms df (a.map SVal.nominal) (ka.map fun p => (p.1, p.2.nominal)) kb = r at h2 ⊢
            cases h2
            exact .error e
          | ok l2 =>
            rw [e2] at h2
            generalize specKwTerms df (a.map SVal.nominal) (ka.map fun p => (p.1, p.2.nominal)) kb = r at h2 ⊢
            cases h2 with
            | @ok _ l2' g2 =>
            simp only [e2] at hn ⊢
            cases e3 : v.toFloat with
            | error e => exact .error e
            | ok x =>
              simp only [e3] at hn ⊢
              have hn := hn _ rfl
              simp only at hn
              have g := List.rel_append g1 g2
              refine .ok (.unc rfl ?_ (comb_rel g hn))
              have hne : l1 ++ l2 ≠ [] := by
                intro h0
                obtain ⟨rfl, rfl⟩ := List.append_eq_nil_iff.1 h0
                exact hp (by rw [posTerms_nil e1, kwTerms_nil e2]; rfl)
              obtain ⟨t, ht⟩ := List.exists_mem_of_ne_nil _ hne
              refine comb_key ht ?_
              obtain ⟨i, hi, rfl⟩ := List.getElem_of_mem ht
              exact (g.get hi (g.length_eq ▸ hi)).2.1

/-- `r`, or `t` if `r` is `NotImplemented`. -/
def firstOf (r t : PyRes (SVal NR)) : PyRes (SVal NR) :=
  match r with
  | .ok (.plain .notImpl) => t
  | r => r

/-- The reflected operator. -/
noncomputable def reflOf (op : BinOp) (a b : SVal NR) : PyRes (SVal NR) :=
  match b with
  | .plain _ => .error .typeError
  | .unc _ => firstOf (specCall op.rwrapDef [b, a] []) (.error .typeError)

theorem specBinop_plain (op : BinOp) (v : PyVal NR) (b : SVal NR) : specBinop op (.plain v) b = reflOf op (.plain v) b := by
  unfold specBinop reflOf
  cases b with
  | plain w => rfl
  | unc q =>
    simp only
    generalize specCall op.rwrapDef [.unc q, .plain v] [] = r
    rcases r with e | w | w
    · rfl
    · rfl
    · cases w <;> rfl

theorem specBinop_unc (op : BinOp) (q : SQ NR) (b : SVal NR) :
    specBinop op (.unc q) b = firstOf (specCall op.wrapDef [.unc q, b] []) (reflOf op (.unc q) b) := by
  unfold specBinop
  simp only
  generalize specCall op.wrapDef [.unc q, b] [] = r
  rcases r with e | w | w
  · rfl
  · rfl
  · cases w with
    | flt _ => rfl
    | cplx => rfl
    | other _ => rfl
    | notImpl =>
      simp only [firstOf, reflOf]
      cases b with
      | plain w => rfl
      | unc p =>
        simp only
        generalize specCall op.rwrapDef [.unc p, .unc q] [] = r
        rcases r with e | w | w
        · rfl
        · rfl
        · cases w <;> rfl

theorem firstOf_unc {r t : PyRes (SVal NR)} {q : SQ NR} (h : r = .ok (.unc q)) : firstOf r t = .ok (.unc q) := by
  rw [h]; rfl

theorem firstOf_rel {r r' t t' : PyRes (SVal NR)} (h : PRel X Y r r') (ht : r = .ok (.plain .notImpl) → PRel X Y t t') :
    PRel X Y (firstOf r t) (firstOf r' t') := by
  cases h with
  | error e => exact .error e
  | ok h =>
    cases h with
    | plain v =>
      cases v with
      | notImpl => exact ht rfl
      | flt x => exact .ok (.plain _)
      | cplx => exact .ok (.plain _)
      | other k => exact .ok (.plain _)
    | unc h1 h2 h3 => exact .ok (.unc h1 h2 h3)

theorem reflOf_rel (op : BinOp) {a a' b b' : SVal NR} (ha : VRel X Y a a') (hb : VRel X Y b b')
    (hn : ∀ q, reflOf op a b = .ok (.unc q) → NoNan q.grad) : PRel X Y (reflOf op a b) (reflOf op a' b') := by
  have hb0 := hb
  cases hb with
  | plain v => exact .error _
  | unc _ _ _ =>
    exact firstOf_rel (specCall_rel op.rwrapDef (.cons hb0 (.cons ha .nil)) .nil fun q hq => hn q (firstOf_unc hq))
      fun _ => .error _

theorem specBinop_rel (op : BinOp) {a a' b b' : SVal NR} (ha : VRel X Y a a') (hb : VRel X Y b b')
    (hn : ∀ q, specBinop op a b = .ok (.unc q) → NoNan q.grad) : PRel X Y (specBinop op a b) (specBinop op a' b') := by
  have ha0 := ha
  cases ha with
  | plain v =>
    simp only [specBinop_plain] at hn ⊢
    exact reflOf_rel op ha0 hb hn
  | unc _ _ _ =>
    simp only [specBinop_unc] at hn ⊢
    refine firstOf_rel (specCall_rel op.wrapDef (.cons ha0 (.cons hb .nil)) .nil fun q hq => hn q (firstOf_unc hq)) fun h0 => ?_
    refine reflOf_rel op ha0 hb fun q hq => hn q ?_
    rw [h0]
    exact hq

/-! ### States -/

theorem placed_rel {eA eB : List (Option (SVal NR))} {gA gB : ℕ → ℕ}
    (h : ∀ k, Option.Rel (VRel X Y) ((eA[gA k]?).join) ((eB[gB k]?).join)) (x : Arg NR) :
    Option.Rel (VRel X Y) ((x.placed gA).seval eA) ((x.placed gB).seval eB) := by
  cases x with
  | ref k => exact h k
  | const v => exact .some (.plain v)

theorem evalArgList_rel {eA eB : List (Option (SVal NR))} {gA gB : ℕ → ℕ}
    (h : ∀ k, Option.Rel (VRel X Y) ((eA[gA k]?).join) ((eB[gB k]?).join)) (xs : List (Arg NR)) :
    Option.Rel (List.Forall₂ (VRel X Y)) (evalArgs (Arg.seval eA) (xs.map (Arg.placed gA)))
      (evalArgs (Arg.seval eB) (xs.map (Arg.placed gB))) := by
  induction xs with
  | nil => exact .some .nil
  | cons x xs ih =>
    simp only [List.map_cons, evalArgs]
    have h1 := placed_rel h x
    generalize (x.placed gA).seval eA = r at h1 ⊢
    generalize (x.placed gB).seval eB = r' at h1 ⊢
    generalize evalArgs (Arg.seval eA) (xs.map (Arg.placed gA)) = t at ih ⊢
    generalize evalArgs (Arg.seval eB) (xs.map (Arg.placed gB)) = t' at ih ⊢
    cases h1 with
    | none => exact .none
    | some h1 =>
      cases ih with
      | none => exact .none
      | some ih => exact .some (.cons h1 ih)

theorem evalKwList_rel {eA eB : List (Option (SVal NR))} {gA gB : ℕ → ℕ}
    (h : ∀ k, Option.Rel (VRel X Y) ((eA[gA k]?).join) ((eB[gB k]?).join)) (xs : List (String × Arg NR)) :
    Option.Rel (List.Forall₂ (KRel X Y)) (evalArgs (Arg.sevalKw eA) (xs.map fun p => (p.1, p.2.placed gA)))
      (evalArgs (Arg.sevalKw eB) (xs.map fun p => (p.1, p.2.placed gB))) := by
  induction xs with
  | nil => exact .some .nil
  | cons x xs ih =>
    obtain ⟨name, x⟩ := x
    simp only [List.map_cons, evalArgs, Arg.sevalKw]
    have h1 := placed_rel h x
    generalize (x.placed gA).seval eA = r at h1 ⊢
    generalize (x.placed gB).seval eB = r' at h1 ⊢
    generalize evalArgs (Arg.sevalKw eA) (xs.map fun p => (p.1, p.2.placed gA)) = t at ih ⊢
    generalize evalArgs (Arg.sevalKw eB) (xs.map fun p => (p.1, p.2.placed gB)) = t' at ih ⊢
    cases h1 with
    | none => exact .none
    | some h1 =>
      cases ih with
      | none => exact .none
      | some ih => exact .some (.cons ⟨rfl, h1⟩ ih)

/-- The same calculation in two programs. -/
structure SRel (X Y : Fin n → Lin NR) (x y : Fin n → ℕ) (a b j : ℕ) (s t : SState NR) : Prop where
  fns : s.fns = t.fns
  lenA : s.env.length = a + j
  lenB : t.env.length = b + j
  env : ∀ k, Option.Rel (VRel X Y) ((s.env[placeOf x a k]?).join) ((t.env[placeOf y b k]?).join)

theorem SRel.push {x y : Fin n → ℕ} {a b j : ℕ} {s t : SState NR} (h : SRel X Y x y a b j s t) (hx : ∀ i, x i < a) (hy : ∀ i, y i < b)
    {p q : Option (SVal NR)} (hpq : Option.Rel (VRel X Y) p q) :
    SRel X Y x y a b (j + 1) { s with env := s.env ++ [p] } { t with env := t.env ++ [q] } := by
  refine ⟨h.fns, by simp [h.lenA]; omega, by simp [h.lenB]; omega, fun k => ?_⟩
  by_cases hk : k = n + j
  · subst hk
    have e1 : placeOf x a (n + j) = s.env.length := by simp [placeOf, h.lenA]
    have e2 : placeOf y b (n + j) = t.env.length := by simp [placeOf, h.lenB]
    rw [e1, e2]
    simpa using hpq
  · have key : (placeOf x a k < s.env.length ∧ placeOf y b k < t.env.length) ∨
        (s.env.length < placeOf x a k ∧ t.env.length < placeOf y b k) := by
      unfold placeOf
      rw [h.lenA, h.lenB]
      split
      · exact .inl ⟨by have := hx ⟨k, ‹_›⟩; omega, by have := hy ⟨k, ‹_›⟩; omega⟩
      · omega
    rcases key with ⟨h1, h2⟩ | ⟨h1, h2⟩
    · rw [List.getElem?_append_left h1, List.getElem?_append_left h2]
      exact h.env k
    · rw [List.getElem?_eq_none (by simp; omega), List.getElem?_eq_none (by simp; omega)]
      exact .none

/-- The value that is bound. -/
def boundOf : PyRes (SVal NR) → Option (SVal NR)
  | .error _ => none
  | .ok (.plain .notImpl) => none
  | .ok v => some v

theorem bind_eq (s : SState NR) (r : PyRes (SVal NR)) : (s.bind r).1 = { s with env := s.env ++ [boundOf r] } := by
  cases r with
  | error e => rfl
  | ok v =>
    cases v with
    | unc q => rfl
    | plain v => cases v <;> rfl

theorem boundOf_rel {r r' : PyRes (SVal NR)} (h : PRel X Y r r') : Option.Rel (VRel X Y) (boundOf r) (boundOf r') := by
  cases h with
  | error e => exact .none
  | ok h =>
    cases h with
    | plain v => cases v <;> first | exact .none | exact .some (.plain _)
    | unc h1 h2 h3 => exact .some (.unc h1 h2 h3)

theorem boundOf_unc {r : PyRes (SVal NR)} {q : SQ NR} (h : r = .ok (.unc q)) : boundOf r = some (.unc q) := by rw [h]; rfl

/-- One step of a calculation binds related values. -/
theorem step_rel {x y : Fin n → ℕ} {a b j : ℕ} {s t : SState NR} (h : SRel X Y x y a b j s t) (c : CalcStep NR) :
    ∃ p q, (s.step (c.cmd (placeOf x a))).1 = { s with env := s.env ++ [p] } ∧
      (t.step (c.cmd (placeOf y b))).1 = { t with env := t.env ++ [q] } ∧
      ((∀ u, p = some (.unc u) → NoNan u.grad) → Option.Rel (VRel X Y) p q) := by
  cases c with
  | unop op z =>
    simp only [CalcStep.cmd, SState.step, Arg.sevalUnc]
    have h1 := placed_rel h.env z
    generalize (z.placed (placeOf x a)).seval s.env = r at h1 ⊢
    generalize (z.placed (placeOf y b)).seval t.env = r' at h1 ⊢
    cases h1 with
    | none => exact ⟨none, none, rfl, rfl, fun _ => .none⟩
    | some h1 =>
      have h0 := h1
      cases h1 with
      | plain v => exact ⟨none, none, rfl, rfl, fun _ => .none⟩
      | unc e1 e2 e3 =>
        refine ⟨_, _, bind_eq _ _, bind_eq _ _, fun hn => boundOf_rel ?_⟩
        exact specCall_rel op.wrapDef (.cons h0 .nil) .nil fun q hq => hn q (boundOf_unc hq)
  | binop op z w =>
    simp only [CalcStep.cmd, SState.step]
    have h1 := placed_rel h.env z
    have h2 := placed_rel h.env w
    generalize (z.placed (placeOf x a)).seval s.env = r at h1 ⊢
    generalize (z.placed (placeOf y b)).seval t.env = r' at h1 ⊢
    generalize (w.placed (placeOf x a)).seval s.env = u at h2 ⊢
    generalize (w.placed (placeOf y b)).seval t.env = u' at h2 ⊢
    cases h1 with
    | none => exact ⟨none, none, rfl, rfl, fun _ => .none⟩
    | some h1 =>
      cases h2 with
      | none => exact ⟨none, none, rfl, rfl, fun _ => .none⟩
      | some h2 =>
        simp only [← h1.isUnc, ← h2.isUnc]
        split
        · refine ⟨_, _, bind_eq _ _, bind_eq _ _, fun hn => boundOf_rel ?_⟩
          exact specBinop_rel op h1 h2 fun q hq => hn q (boundOf_unc hq)
        · exact ⟨none, none, rfl, rfl, fun _ => .none⟩
  | call f args kwargs =>
    simp only [CalcStep.cmd, SState.step]
    have hf : t.fns[f]? = s.fns[f]? := by rw [h.fns]
    rw [hf]
    cases s.fns[f]? with
    | none => exact ⟨none, none, rfl, rfl, fun _ => .none⟩
    | some df =>
      have h1 := evalArgList_rel h.env args
      have h2 := evalKwList_rel h.env kwargs
      simp only
      generalize evalArgs (Arg.seval s.env) (args.map (Arg.placed (placeOf x a))) = r at h1 ⊢
      generalize evalArgs (Arg.seval t.env) (args.map (Arg.placed (placeOf y b))) = r' at h1 ⊢
      generalize evalArgs (Arg.sevalKw s.env) (kwargs.map fun p => (p.1, p.2.placed (placeOf x a))) = u at h2 ⊢
      generalize evalArgs (Arg.sevalKw t.env) (kwargs.map fun p => (p.1, p.2.placed (placeOf y b))) = u' at h2 ⊢
      cases h1 with
      | none => exact ⟨none, none, rfl, rfl, fun _ => .none⟩
      | some h1 =>
        cases h2 with
        | none => exact ⟨none, none, rfl, rfl, fun _ => .none⟩
        | some h2 =>
          refine ⟨_, _, bind_eq _ _, bind_eq _ _, fun hn => boundOf_rel ?_⟩
          exact specCall_rel df h1 h2 fun q hq => hn q (boundOf_unc hq)
  | lcst f args kwargs =>
    simp only [CalcStep.cmd, SState.step]
    have h1 := evalArgList_rel h.env args
    have h2 := evalKwList_rel h.env kwargs
    generalize evalArgs (Arg.seval s.env) (args.map (Arg.placed (placeOf x a))) = r at h1 ⊢
    generalize evalArgs (Arg.seval t.env) (args.map (Arg.placed (placeOf y b))) = r' at h1 ⊢
    generalize evalArgs (Arg.sevalKw s.env) (kwargs.map fun p => (p.1, p.2.placed (placeOf x a))) = u at h2 ⊢
    generalize evalArgs (Arg.sevalKw t.env) (kwargs.map fun p => (p.1, p.2.placed (placeOf y b))) = u' at h2 ⊢
    cases h1 with
    | none => exact ⟨none, none, rfl, rfl, fun _ => .none⟩
    | some h1 =>
      cases h2 with
      | none => exact ⟨none, none, rfl, rfl, fun _ => .none⟩
      | some h2 =>
        refine ⟨_, _, bind_eq _ _, bind_eq _ _, fun _ => boundOf_rel ?_⟩
        unfold specLcst
        rw [← nominals_rel h1, ← kwNominals_rel h2]
        split
        · exact .error _
        · exact .ok (.plain _)

theorem isCopy_cmd (g : ℕ → ℕ) (c : CalcStep NR) : (c.cmd g).isCopy = false := by cases c <;> rfl

/-- A calculation. -/
theorem run_rel {x y : Fin n → ℕ} {a b : ℕ} (hx : ∀ i, x i < a) (hy : ∀ i, y i < b) (p : List (CalcStep NR)) :
    ∀ {j : ℕ} {s t : SState NR} {cs ds : List (Cmd NR)}, SRel X Y x y a b j s t → Reaches cs s → Reaches ds t →
      ∃ s' t', Reaches (cs ++ p.map (CalcStep.cmd (placeOf x a))) s' ∧ Reaches (ds ++ p.map (CalcStep.cmd (placeOf y b))) t' ∧
        s'.vars = s.vars ∧ t'.vars = t.vars ∧ (∃ l, s'.env = s.env ++ l) ∧
        ((∀ k u, a ≤ k → s'.env[k]? = some (some (.unc u)) → NoNan u.grad) → SRel X Y x y a b (j + p.length) s' t') := by
  induction p with
  | nil =>
    intro j s t cs ds h hs ht
    exact ⟨s, t, by simpa using hs, by simpa using ht, rfl, rfl, ⟨[], by simp⟩, fun _ => h⟩
  | cons c p ih =>
    intro j s t cs ds h hs ht
    obtain ⟨u, w, e1, e2, e3⟩ := step_rel h c
    have r1 := (hs.snoc _ (isCopy_cmd (placeOf x a) c)).2
    have r2 := (ht.snoc _ (isCopy_cmd (placeOf y b) c)).2
    rw [e1] at r1
    rw [e2] at r2
    by_cases hu : ∀ z, u = some (.unc z) → NoNan z.grad
    · obtain ⟨s', t', k1, k2, k3, k4, ⟨l, k5⟩, k6⟩ := ih (h.push hx hy (e3 hu)) r1 r2
      refine ⟨s', t', by simpa using k1, by simpa using k2, k3, k4, ⟨u :: l, by simpa using k5⟩, fun hn => ?_⟩
      have := k6 hn
      rw [List.length_cons, show j + (p.length + 1) = j + 1 + p.length by omega]
      exact this
    · -- the calculation fails the hypothesis
      have fr : ∀ (p : List (CalcStep NR)) {s : SState NR} {cs : List (Cmd NR)} (g : ℕ → ℕ), Reaches cs s →
          ∃ s', Reaches (cs ++ p.map (CalcStep.cmd g)) s' ∧ s'.vars = s.vars ∧ ∃ l, s'.env = s.env ++ l := by
        intro p
        induction p with
        | nil => intro s cs g hs; exact ⟨s, by simpa using hs, rfl, [], by simp⟩
        | cons c p ih =>
          intro s cs g hs
          have r1 := (hs.snoc _ (isCopy_cmd g c)).2
          obtain ⟨o, ho⟩ : ∃ o, (s.step (c.cmd g)).1 = { s with env := s.env ++ [o] } := by
            cases c with
            | unop op z => simp only [CalcStep.cmd, SState.step]; split <;> exact ⟨_, by first | exact bind_eq _ _ | rfl⟩
            | binop op z w =>
              simp only [CalcStep.cmd, SState.step]
              split
              · split <;> exact ⟨_, by first | exact bind_eq _ _ | rfl⟩
              · exact ⟨_, rfl⟩
            | call f args kwargs =>
              simp only [CalcStep.cmd, SState.step]
              split
              · exact ⟨_, rfl⟩
              · split <;> exact ⟨_, by first | exact bind_eq _ _ | rfl⟩
            | lcst f args kwargs =>
              simp only [CalcStep.cmd, SState.step]
              split <;> exact ⟨_, by first | exact bind_eq _ _ | rfl⟩
          rw [ho] at r1
          obtain ⟨s', k1, k2, l, k3⟩ := ih g r1
          exact ⟨s', by simpa using k1, k2, o :: l, by simpa using k3⟩
      obtain ⟨s', k1, k2, l, k3⟩ := fr p (placeOf x a) r1
      obtain ⟨t', m1, m2, -⟩ := fr p (placeOf y b) r2
      refine ⟨s', t', by simpa using k1, by simpa using m1, k2, m2, ⟨u :: l, by simpa using k3⟩, fun hn => absurd ?_ hu⟩
      rintro z rfl
      refine hn (a + j) z (by omega) ?_
      rw [k3]
      simp [← h.lenA]

/-! ### What is seen -/

theorem basis_rel (hX : ∀ i, NoNan (X i)) (hY : ∀ i, NoNan (Y i)) (k : Fin n) : GRel X Y (X k) (Y k) :=
  ⟨hX k, hY k, fun _ h => ⟨k, h⟩, fun _ h => ⟨k, h⟩, fun i => if i = k then 1 else 0, fun v => by simp, fun v => by simp⟩

theorem eval_of_sevalUnc {e : List (Option (SVal NR))} {k : ℕ} {q : SQ NR} (h : (Arg.ref k : Arg NR).sevalUnc e = some q) :
    (e[k]?).join = some (.unc q) := by
  simp only [Arg.sevalUnc, Arg.seval] at h
  split at h
  · rename_i p hp
    cases h
    exact hp
  · cases h

theorem sevalUnc_of_eval {e : List (Option (SVal NR))} {k : ℕ} {q : SQ NR} (h : (e[k]?).join = some (.unc q)) :
    (Arg.ref k : Arg NR).sevalUnc e = some q := by
  simp only [Arg.sevalUnc, Arg.seval, h]

theorem lt_of_eval {e : List (Option (SVal NR))} {k : ℕ} {v : SVal NR} (h : (e[k]?).join = some v) : k < e.length := by
  by_contra h'
  rw [List.getElem?_eq_none (by omega)] at h
  cases h

/-- The same calculation on numbers of two programs. -/
theorem resume_rel {A B : List (Cmd NR)} (hf : fnsOf A = fnsOf B) {x y : Fin n → ℕ} {nom : Fin n → NR} {σ τ : VarId → NR}
    (hx : ∀ i, Quantity A (.ref (x i)) (nom i) (X i) σ) (hy : ∀ i, Quantity B (.ref (y i)) (nom i) (Y i) τ)
    (nx : ∀ i, NoNan (X i)) (ny : ∀ i, NoNan (Y i)) (kx : ∀ i, ∃ v, X i v ≠ none) (p : List (CalcStep NR))
    (hn : ∀ k D, sees (calculation A x p) (.derivatives (calcRef A x k)) = .dict D → NoNan D) :
    ∃ s t, Reaches (calculation A x p) s ∧ Reaches (calculation B y p) t ∧
      (∀ i, StdsAre s.vars (X i) σ) ∧ (∀ i, StdsAre t.vars (Y i) τ) ∧
      ∀ k, Option.Rel (VRel X Y) ((s.env[placeOf x (after A).env.length k]?).join)
        ((t.env[placeOf y (after B).env.length k]?).join) := by
  obtain ⟨s, hs⟩ := Reaches.exists A
  obtain ⟨t, ht⟩ := Reaches.exists B
  choose p1 a1 a2 a3 a4 using fun i => hs.quantity (hx i)
  choose p2 b1 b2 b3 b4 using fun i => ht.quantity (hy i)
  have ex := fun i => eval_of_sevalUnc (a1 i)
  have ey := fun i => eval_of_sevalUnc (b1 i)
  have lx : ∀ i, x i < (after A).env.length := fun i => hs.env_length ▸ lt_of_eval (ex i)
  have ly : ∀ i, y i < (after B).env.length := fun i => ht.env_length ▸ lt_of_eval (ey i)
  have h0 : SRel X Y x y (after A).env.length (after B).env.length 0 s t := by
    refine ⟨by rw [hs.fnsOf_eq, ht.fnsOf_eq, hf], by simp [hs.env_length], by simp [ht.env_length], fun k => ?_⟩
    unfold placeOf
    split
    · rename_i h
      rw [ex ⟨k, h⟩, ey ⟨k, h⟩]
      refine .some (.unc (by rw [a2, b2]) (by rw [a3]; exact kx _) ?_)
      rw [a3, b3]
      exact basis_rel nx ny _
    · rw [List.getElem?_eq_none (by rw [hs.env_length]; omega), List.getElem?_eq_none (by rw [ht.env_length]; omega)]
      exact .none
  obtain ⟨s', t', r1, r2, r3, r4, ⟨l, r5⟩, r6⟩ := run_rel lx ly p h0 hs ht
  refine ⟨s', t', r1, r2, fun i => r3 ▸ a4 i, fun i => r4 ▸ b4 i, (r6 fun k u hk hu => ?_).env⟩
  refine hn (n + (k - (after A).env.length)) u.grad ?_
  rw [(Reaches.read (cs := calculation A x p) r1 (c := .derivatives _) rfl).1]
  have e : calcRef A x (n + (k - (after A).env.length)) = .ref k := by
    simp only [calcRef, placeOf]
    rw [dif_neg (by omega)]
    congr 1
    omega
  rw [e]
  simp only [SState.step, SState.read]
  rw [sevalUnc_of_eval (q := u) (by rw [hu]; rfl)]

/-- Covariances of linear combinations. -/
theorem cov_of_comb {vars : List (SVar NR)} {σ : VarId → ℝ} (hσ : ∀ i, StdsAre vars (X i) fun v => fin (σ v)) {a a' : Lin NR}
    (na : NoNan a) (na' : NoNan a') (sa : ∀ v, a v ≠ none → ∃ i, X i v ≠ none) {c c' : Fin n → ℝ}
    (hc : ∀ v, coef (a v) = ∑ i, c i * coef (X i v)) (hc' : ∀ v, coef (a' v) = ∑ i, c' i * coef (X i v)) :
    specCov vars a a' = fin (∑ i, ∑ j, c i * covM X σ (range vars.length) i j * c' j) := by
  have hs : StdsAre vars a fun v => fin (σ v) := fun v hv => by
    obtain ⟨i, hi⟩ := sa v hv
    exact hσ i v hi
  rw [specCov_fin na na' hs]
  congr 1
  have e : ∀ v, (∑ i, c i * coef (X i v)) * (∑ j, c' j * coef (X j v)) * σ v ^ 2 =
      ∑ i, ∑ j, c i * (coef (X i v) * coef (X j v) * σ v ^ 2) * c' j := fun v => by
    rw [sum_mul_sum, sum_mul]
    refine sum_congr rfl fun i _ => ?_
    rw [sum_mul]
    exact sum_congr rfl fun j _ => by ring
  simp only [hc, hc', covM, e]
  rw [sum_comm]
  refine sum_congr rfl fun i _ => ?_
  rw [sum_comm]
  refine sum_congr rfl fun j _ => ?_
  rw [mul_sum, sum_mul]

theorem variance_eq_cov {vars : List (SVar NR)} {σ : VarId → ℝ} {a : Lin NR} (na : NoNan a) (hs : StdsAre vars a fun v => fin (σ v)) :
    specVariance vars a = specCov vars a a := by
  rw [specCov_fin na na hs, specVariance_fin na hs]
  congr 1
  exact sum_congr rfl fun v _ => by ring

end Unc
