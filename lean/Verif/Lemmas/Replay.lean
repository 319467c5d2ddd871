import Mathlib.Algebra.BigOperators.Fin
import Verif.Spec.Replay
import Verif.Props.C23_Operators

/-
Differentiation of a whole calculation along the nominal value of one variable.
-/

set_option autoImplicit false
set_option linter.unusedSectionVars false

namespace Unc

open Topology NR Filter

/-- Coefficient of a variable in a linear form, 0 if it does not appear. -/
def HasCoef (L : Lin NR) (v : VarId) (d : ℝ) : Prop := L v = some (fin d) ∨ (L v = none ∧ d = 0)

theorem HasCoef.zero (v : VarId) : HasCoef Lin.zero v 0 := Or.inr ⟨rfl, rfl⟩

theorem HasCoef.smul {L : Lin NR} {v : VarId} {d : ℝ} (c : ℝ) (h : HasCoef L v d) :
    HasCoef (Lin.smul (fin c) L) v (c * d) := by
  rcases h with h | ⟨h, rfl⟩
  · left; simp [Lin.smul, h]
  · right; simp [Lin.smul, h]

theorem HasCoef.add {L M : Lin NR} {v : VarId} {d e : ℝ} (h : HasCoef L v d) (h' : HasCoef M v e) :
    HasCoef (Lin.add L M) v (d + e) := by
  rcases h with h | ⟨h, rfl⟩ <;> rcases h' with h' | ⟨h', rfl⟩
  · left; simp [Lin.add, h, h', optAdd]
  · left; simp [Lin.add, h, h', optAdd]
  · left; simp [Lin.add, h, h', optAdd]
  · right; simp [Lin.add, h, h', optAdd]

theorem HasCoef.append {l1 l2 : List (NR × Lin NR)} {v : VarId} {d e : ℝ}
    (h : HasCoef (Lin.comb l1) v d) (h' : HasCoef (Lin.comb l2) v e) :
    HasCoef (Lin.comb (l1 ++ l2)) v (d + e) := by
  have : Lin.comb (l1 ++ l2) v = Lin.add (Lin.comb l1) (Lin.comb l2) v := by
    clear h h'
    induction l1 with
    | nil => simp [Lin.comb, Lin.add, Lin.zero, optAdd]
    | cons a l1 ih =>
      obtain ⟨c, L⟩ := a
      simp only [List.cons_append, Lin.comb, Lin.add] at ih ⊢
      rw [ih]
      cases Lin.smul c L v <;> cases Lin.comb l1 v <;> cases Lin.comb l2 v <;>
        simp [optAdd, ExactLin.add_assoc]
  have h3 := h.add h'
  unfold HasCoef at h3 ⊢
  rwa [this]

theorem HasCoef.unique {L : Lin NR} {v : VarId} {d e : ℝ} (h : HasCoef L v d) (h' : HasCoef L v e) :
    d = e := by
  rcases h with h | ⟨h, rfl⟩ <;> rcases h' with h' | ⟨h', rfl⟩
  · rw [h] at h'; simpa using h'
  · rw [h] at h'; cases h'
  · rw [h] at h'; cases h'
  · rfl

theorem HasCoef.single (v : VarId) : HasCoef (Lin.single v) v 1 := by
  left; simp [Lin.single]

theorem HasCoef.single_ne {u v : VarId} (h : v ≠ u) : HasCoef (Lin.single u) v 0 := by
  right; simp [Lin.single, h]

/-- The value `E t` is the observed value `a` at `t0`, and its derivative is the one observed. -/
def Follows (v : VarId) (t0 : ℝ) (E : ℝ → Option (PyVal NR)) : Seen NR → Prop
  | (p, none) => ∀ᶠ t in 𝓝 t0, E t = some p
  | (p, some D) => ∃ (g : ℝ → ℝ) (d : ℝ), p = .flt (fin (g t0)) ∧
      (∀ᶠ t in 𝓝 t0, E t = some (.flt (fin (g t)))) ∧ HasDerivAt g d t0 ∧ HasCoef D v d

theorem Follows.congr {v : VarId} {t0 : ℝ} {E E' : ℝ → Option (PyVal NR)} {a : Seen NR}
    (h : Follows v t0 E a) (he : ∀ᶠ t in 𝓝 t0, E' t = E t) : Follows v t0 E' a := by
  obtain ⟨p, D⟩ := a
  cases D with
  | none => simp only [Follows] at h ⊢; filter_upwards [h, he] with t h1 h2; rw [h2, h1]
  | some D =>
    obtain ⟨g, d, h1, h2, h3⟩ := h
    exact ⟨g, d, h1, by filter_upwards [h2, he] with t h1 h2; rw [h2, h1], h3⟩

/-- `γ` are the values of the arguments with uncertainty, and `γ'` their derivatives. -/
def Curves (v : VarId) (t0 : ℝ) : List (Seen NR) → (ℕ → ℝ → ℝ) → (ℕ → ℝ) → Prop
  | [], γ, γ' => ∀ i, γ i = 0 ∧ γ' i = 0
  | (_, none) :: rest, γ, γ' => γ 0 = 0 ∧ γ' 0 = 0 ∧
      Curves v t0 rest (fun i => γ (i + 1)) (fun i => γ' (i + 1))
  | (p, some D) :: rest, γ, γ' => p = .flt (fin (γ 0 t0)) ∧ HasDerivAt (γ 0) (γ' 0) t0 ∧
      HasCoef D v (γ' 0) ∧ Curves v t0 rest (fun i => γ (i + 1)) (fun i => γ' (i + 1))

/-- A sequence with a first element. -/
def consSeq {α : Type} (a : α) (f : ℕ → α) : ℕ → α
  | 0 => a
  | i + 1 => f i

theorem args_curves {v : VarId} {t0 : ℝ} {env : ℝ → List (Option (PyVal NR))} {xs : List (Arg NR)}
    {as : List (Seen NR)} (h : List.Forall₂ (fun x a => Follows v t0 (fun t => x.plain (env t)) a) xs as) :
    ∃ γ γ', Curves v t0 as γ γ' ∧
      ∀ᶠ t in 𝓝 t0, evalArgs (Arg.plain (env t)) xs = some (movedArgs as (fun i => γ i t)) := by
  induction h with
  | nil => exact ⟨0, 0, fun _ => ⟨rfl, rfl⟩, Eventually.of_forall fun _ => rfl⟩
  | @cons x a xs as h1 _ ih =>
    obtain ⟨γ, γ', h2, h3⟩ := ih
    obtain ⟨p, D⟩ := a
    cases D with
    | none =>
      refine ⟨consSeq 0 γ, consSeq 0 γ', ⟨rfl, rfl, h2⟩, ?_⟩
      simp only [Follows] at h1
      filter_upwards [h1, h3] with t h4 h5
      simp only [evalArgs, h4, h5, movedArgs, consSeq]
    | some D =>
      obtain ⟨g, d, h4, h5, h6, h7⟩ := h1
      refine ⟨consSeq g γ, consSeq d γ', ⟨h4, h6, h7, h2⟩, ?_⟩
      filter_upwards [h5, h3] with t h8 h9
      simp only [evalArgs, h8, h9, movedArgs, consSeq]

theorem kwargs_curves {v : VarId} {t0 : ℝ} {env : ℝ → List (Option (PyVal NR))}
    {xs : List (String × Arg NR)} {as : List (String × Seen NR)}
    (h : List.Forall₂ (fun x a => x.1 = a.1 ∧ Follows v t0 (fun t => x.2.plain (env t)) a.2) xs as) :
    ∃ γ γ', Curves v t0 (as.map Prod.snd) γ γ' ∧
      ∀ᶠ t in 𝓝 t0, evalArgs (Arg.plainKw (env t)) xs = some (movedKw as (fun i => γ i t)) := by
  induction h with
  | nil => exact ⟨0, 0, fun _ => ⟨rfl, rfl⟩, Eventually.of_forall fun _ => rfl⟩
  | @cons x a xs as h1 _ ih =>
    obtain ⟨γ, γ', h2, h3⟩ := ih
    obtain ⟨k', p, D⟩ := a
    obtain ⟨k, x⟩ := x
    obtain ⟨hk, h1⟩ := h1
    simp only at hk h1
    subst hk
    cases D with
    | none =>
      refine ⟨consSeq 0 γ, consSeq 0 γ', ⟨rfl, rfl, h2⟩, ?_⟩
      simp only [Follows] at h1
      filter_upwards [h1, h3] with t h4 h5
      simp only [evalArgs, Arg.plainKw, h4, h5, movedKw, consSeq, Option.map_some]
    | some D =>
      obtain ⟨g, d, h4, h5, h6, h7⟩ := h1
      refine ⟨consSeq g γ, consSeq d γ', ⟨h4, h6, h7, h2⟩, ?_⟩
      filter_upwards [h5, h3] with t h8 h9
      simp only [evalArgs, Arg.plainKw, h8, h9, movedKw, consSeq, Option.map_some]

theorem Curves.hasDerivAt {v : VarId} {t0 : ℝ} {as : List (Seen NR)} {γ : ℕ → ℝ → ℝ} {γ' : ℕ → ℝ}
    (h : Curves v t0 as γ γ') (i : ℕ) : HasDerivAt (γ i) (γ' i) t0 := by
  induction as generalizing γ γ' i with
  | nil =>
    obtain ⟨h1, h2⟩ := h i
    rw [h1, h2]; exact hasDerivAt_const t0 (0:ℝ)
  | cons a as ih =>
    obtain ⟨p, D⟩ := a
    cases D with
    | none =>
      obtain ⟨h1, h2, h3⟩ := h
      cases i with
      | zero => rw [h1, h2]; exact hasDerivAt_const t0 (0:ℝ)
      | succ i => exact ih h3 i
    | some D =>
      obtain ⟨h1, h2, h4, h3⟩ := h
      cases i with
      | zero => exact h2
      | succ i => exact ih h3 i

theorem Curves.beyond {v : VarId} {t0 : ℝ} {as : List (Seen NR)} {γ : ℕ → ℝ → ℝ} {γ' : ℕ → ℝ}
    (h : Curves v t0 as γ γ') (i : ℕ) (hi : as.length ≤ i) : γ i = 0 := by
  induction as generalizing γ γ' i with
  | nil => exact (h i).1
  | cons a as ih =>
    obtain ⟨p, D⟩ := a
    cases i with
    | zero => simp at hi
    | succ i =>
      simp only [List.length_cons, Nat.add_le_add_iff_right] at hi
      cases D with
      | none => exact ih h.2.2 i hi
      | some D => exact ih h.2.2.2 i hi

theorem Curves.nominal {v : VarId} {t0 : ℝ} {as : List (Seen NR)} {γ : ℕ → ℝ → ℝ} {γ' : ℕ → ℝ}
    (h : Curves v t0 as γ γ') (i : ℕ) : ((as[i]?).map Seen.real).getD 0 = γ i t0 := by
  induction as generalizing γ γ' i with
  | nil => rw [(h i).1]; rfl
  | cons a as ih =>
    obtain ⟨p, D⟩ := a
    cases D with
    | none =>
      obtain ⟨h1, h2, h3⟩ := h
      cases i with
      | zero => rw [h1]; simp [Seen.real]
      | succ i => exact ih h3 i
    | some D =>
      obtain ⟨h1, h2, h4, h3⟩ := h
      cases i with
      | zero => simp [h1, Seen.real]
      | succ i => exact ih h3 i

theorem movedArgs_congr {as : List (Seen NR)} {y y' : ℕ → ℝ} (h : ∀ i < as.length, y i = y' i) :
    movedArgs as y = movedArgs as y' := by
  induction as generalizing y y' with
  | nil => rfl
  | cons a as ih =>
    obtain ⟨p, D⟩ := a
    have h0 := ih (y := fun i => y (i + 1)) (y' := fun i => y' (i + 1))
      (fun i hi => h (i + 1) (by simpa using hi))
    cases D with
    | none => simp only [movedArgs, h0]
    | some D => simp only [movedArgs, h0, h 0 (by simp)]

theorem movedKw_congr {as : List (String × Seen NR)} {y y' : ℕ → ℝ} (h : ∀ i < as.length, y i = y' i) :
    movedKw as y = movedKw as y' := by
  induction as generalizing y y' with
  | nil => rfl
  | cons a as ih =>
    obtain ⟨k, p, D⟩ := a
    have h0 := ih (y := fun i => y (i + 1)) (y' := fun i => y' (i + 1))
      (fun i hi => h (i + 1) (by simpa using hi))
    cases D with
    | none => simp only [movedKw, h0]
    | some D => simp only [movedKw, h0, h 0 (by simp)]

theorem Curves.movedArgs {v : VarId} {t0 : ℝ} {as : List (Seen NR)} {γ : ℕ → ℝ → ℝ} {γ' : ℕ → ℝ}
    (h : Curves v t0 as γ γ') : movedArgs as (fun i => γ i t0) = as.map Prod.fst := by
  induction as generalizing γ γ' with
  | nil => rfl
  | cons a as ih =>
    obtain ⟨p, D⟩ := a
    cases D with
    | none => simp only [Unc.movedArgs, List.map_cons]; rw [ih h.2.2]
    | some D =>
      simp only [Unc.movedArgs, List.map_cons]
      rw [ih h.2.2.2, ← h.1]

theorem Curves.movedKw {v : VarId} {t0 : ℝ} {as : List (String × Seen NR)} {γ : ℕ → ℝ → ℝ} {γ' : ℕ → ℝ}
    (h : Curves v t0 (as.map Prod.snd) γ γ') :
    movedKw as (fun i => γ i t0) = as.map (fun p => (p.1, p.2.1)) := by
  induction as generalizing γ γ' with
  | nil => rfl
  | cons a as ih =>
    obtain ⟨k, p, D⟩ := a
    cases D with
    | none => simp only [Unc.movedKw, List.map_cons]; rw [ih h.2.2]
    | some D =>
      simp only [Unc.movedKw, List.map_cons]
      rw [ih h.2.2.2, ← h.1]

/-- Without uncertainties, nothing moves. -/
theorem movedArgs_plain {as : List (Seen NR)} (h : as.any (fun a => a.2.isSome) = false) (y : ℕ → ℝ) :
    movedArgs as y = as.map Prod.fst := by
  induction as generalizing y with
  | nil => rfl
  | cons a as ih =>
    obtain ⟨p, D⟩ := a
    cases D with
    | none => simp only [movedArgs, List.map_cons]; rw [ih (by simpa using h)]
    | some D => simp at h

theorem movedKw_plain {as : List (String × Seen NR)} (h : as.any (fun a => a.2.2.isSome) = false)
    (y : ℕ → ℝ) : movedKw as y = as.map (fun p => (p.1, p.2.1)) := by
  induction as generalizing y with
  | nil => rfl
  | cons a as ih =>
    obtain ⟨k, p, D⟩ := a
    cases D with
    | none => simp only [movedKw, List.map_cons]; rw [ih (by simpa using h)]
    | some D => simp at h

/-! ### Functions along curves -/

/-- All the curves. -/
def joinSeq {α : Type} (m : Nat) (f g : ℕ → α) (i : ℕ) : α := if i < m then f i else g (i - m)

theorem joinSeq_lt {α : Type} {m : Nat} {f g : ℕ → α} {i : ℕ} (h : i < m) : joinSeq m f g i = f i := by
  simp [joinSeq, h]

theorem joinSeq_add {α : Type} {m : Nat} {f g : ℕ → α} (i : ℕ) : joinSeq m f g (m + i) = g i := by
  simp [joinSeq]

section
variable {v : VarId} {t0 : ℝ} {f : PyFn NR} {av : List (Seen NR)} {kv : List (String × Seen NR)}
  {γ1 γ2 : ℕ → ℝ → ℝ} {γ1' γ2' : ℕ → ℝ}

/-- The arguments of a function as a curve. -/
def argCurve (av : List (Seen NR)) (kv : List (String × Seen NR)) (γ1 γ2 : ℕ → ℝ → ℝ) (t : ℝ) :
    Fin (av.length + kv.length) → ℝ :=
  fun i => joinSeq av.length γ1 γ2 i t

theorem argCurve_start (h1 : Curves v t0 av γ1 γ1') (h2 : Curves v t0 (kv.map Prod.snd) γ2 γ2') :
    argCurve av kv γ1 γ2 t0 = fun i : Fin (av.length + kv.length) => nominalSlots av kv i := by
  funext i
  simp only [argCurve, nominalSlots]
  by_cases hi : (i : ℕ) < av.length
  · rw [joinSeq_lt hi, List.getElem?_append_left hi, h1.nominal]
  · rw [List.getElem?_append_right (by omega), h2.nominal]
    simp [joinSeq, hi]

theorem argCurve_deriv (h1 : Curves v t0 av γ1 γ1') (h2 : Curves v t0 (kv.map Prod.snd) γ2 γ2') :
    HasDerivAt (argCurve av kv γ1 γ2) (fun i => joinSeq av.length γ1' γ2' i) t0 := by
  rw [hasDerivAt_pi]
  intro i
  simp only [argCurve]
  by_cases hi : (i : ℕ) < av.length
  · simp only [joinSeq_lt hi]; exact h1.hasDerivAt i
  · simp only [joinSeq, hi, if_false]; exact h2.hasDerivAt _

theorem movedCall_argCurve (t : ℝ) :
    movedCall f av kv (extendSeq (argCurve av kv γ1 γ2 t)) =
      f (movedArgs av (fun i => γ1 i t)) (movedKw kv (fun i => γ2 i t)) := by
  unfold movedCall
  congr 1
  · apply movedArgs_congr
    intro i hi
    have : i < av.length + kv.length := by omega
    simp [extendSeq, this, argCurve, joinSeq_lt hi]
  · apply movedKw_congr
    intro i hi
    have : i + av.length < av.length + kv.length := by omega
    simp [extendSeq, this, argCurve, joinSeq]

theorem DiffAt.along {c : ℕ → ℝ} (h : DiffAt f av kv c) (h1 : Curves v t0 av γ1 γ1')
    (h2 : Curves v t0 (kv.map Prod.snd) γ2 γ2') :
    ∃ G : ℝ → ℝ, (∀ᶠ t in 𝓝 t0, f (movedArgs av (fun i => γ1 i t)) (movedKw kv (fun i => γ2 i t)) =
        .ok (.flt (fin (G t)))) ∧
      HasDerivAt G (∑ i ∈ Finset.range av.length, c i * γ1' i +
        ∑ i ∈ Finset.range kv.length, c (av.length + i) * γ2' i) t0 := by
  obtain ⟨g, hg1, hg2⟩ := h
  have hs := argCurve_start h1 h2
  have hd := argCurve_deriv h1 h2
  rw [← hs] at hg1 hg2
  refine ⟨fun t => g (argCurve av kv γ1 γ2 t), ?_, ?_⟩
  · filter_upwards [hd.continuousAt.eventually hg1] with t ht
    exact (movedCall_argCurve t).symm.trans ht
  · have := hg2.comp_hasDerivAt t0 hd
    refine this.congr_deriv ?_
    simp only [ContinuousLinearMap.coe_sum', Finset.sum_apply, ContinuousLinearMap.coe_smul',
      Pi.smul_apply, ContinuousLinearMap.proj_apply, smul_eq_mul]
    rw [Finset.sum_range (fun i => c i * γ1' i), Finset.sum_range (fun i => c (av.length + i) * γ2' i),
      Fin.sum_univ_add]
    congr 1
    · exact Finset.sum_congr rfl fun i _ => by simp [joinSeq]
    · exact Finset.sum_congr rfl fun i _ => by simp [joinSeq]

theorem LocallyConstantAt.along (h : LocallyConstantAt f av kv) (h1 : Curves v t0 av γ1 γ1')
    (h2 : Curves v t0 (kv.map Prod.snd) γ2 γ2') :
    ∀ᶠ t in 𝓝 t0, f (movedArgs av (fun i => γ1 i t)) (movedKw kv (fun i => γ2 i t)) =
      f (av.map Prod.fst) (kv.map (fun p => (p.1, p.2.1))) := by
  obtain ⟨r, hr⟩ := h
  have hs := argCurve_start h1 h2
  have hd := argCurve_deriv h1 h2
  rw [← hs] at hr
  have h0 := hr.self_of_nhds
  rw [movedCall_argCurve, h1.movedArgs, h2.movedKw] at h0
  filter_upwards [hd.continuousAt.eventually hr] with t ht
  rw [h0, ← ht, movedCall_argCurve]

end

/-! ### Chain rule for the derivatives of the code -/

theorem docPosTerms_coef {v : VarId} {t0 : ℝ} {df : WrapDef NR} {a : List (PyVal NR)} {k : KwArgs NR}
    {av : List (Seen NR)} {γ : ℕ → ℝ → ℝ} {γ' : ℕ → ℝ} (h : Curves v t0 av γ γ') {c : ℕ → ℝ} {pos : Nat}
    (hc : ∀ i b, av[i]? = some b → b.2 ≠ none → df.specPos (pos + i) a k = .ok (fin (c i))) :
    ∃ l, docPosTerms df a k pos av = .ok l ∧
      HasCoef (Lin.comb l) v (∑ i ∈ Finset.range av.length, c i * γ' i) := by
  induction av generalizing γ γ' c pos with
  | nil => exact ⟨[], rfl, HasCoef.zero v⟩
  | cons b av ih =>
    obtain ⟨p, D⟩ := b
    have hc' : ∀ i b, av[i]? = some b → b.2 ≠ none → df.specPos (pos + 1 + i) a k = .ok (fin (c (i + 1))) := by
      intro i b hb hb'
      have := hc (i + 1) b (by simpa using hb) hb'
      rwa [show pos + (i + 1) = pos + 1 + i by omega] at this
    rw [List.length_cons, Finset.sum_range_succ']
    cases D with
    | none =>
      obtain ⟨h1, h2, h3⟩ := h
      obtain ⟨l, hl1, hl2⟩ := ih h3 (c := fun i => c (i + 1)) hc'
      refine ⟨l, hl1, ?_⟩
      rw [h2, mul_zero, add_zero]
      exact hl2
    | some D =>
      obtain ⟨h1, h2, h4, h3⟩ := h
      obtain ⟨l, hl1, hl2⟩ := ih h3 (c := fun i => c (i + 1)) hc'
      have h0 := hc 0 (p, some D) rfl (by simp)
      rw [Nat.add_zero] at h0
      refine ⟨(fin (c 0), D) :: l, by simp only [docPosTerms, h0, hl1]; rfl, ?_⟩
      rw [add_comm]
      exact (h4.smul (c 0)).add hl2

theorem docKwTerms_coef {v : VarId} {t0 : ℝ} {df : WrapDef NR} {a : List (PyVal NR)} {k : KwArgs NR}
    {kv : List (String × Seen NR)} {γ : ℕ → ℝ → ℝ} {γ' : ℕ → ℝ} (h : Curves v t0 (kv.map Prod.snd) γ γ')
    {c : ℕ → ℝ}
    (hc : ∀ i b, kv[i]? = some b → b.2.2 ≠ none → df.specKw b.1 a k = .ok (fin (c i))) :
    ∃ l, docKwTerms df a k kv = .ok l ∧
      HasCoef (Lin.comb l) v (∑ i ∈ Finset.range kv.length, c i * γ' i) := by
  induction kv generalizing γ γ' c with
  | nil => exact ⟨[], rfl, HasCoef.zero v⟩
  | cons b kv ih =>
    obtain ⟨name, p, D⟩ := b
    have hc' : ∀ i b, kv[i]? = some b → b.2.2 ≠ none → df.specKw b.1 a k = .ok (fin (c (i + 1))) := by
      intro i b hb hb'
      exact hc (i + 1) b (by simpa using hb) hb'
    rw [List.length_cons, Finset.sum_range_succ']
    cases D with
    | none =>
      obtain ⟨h1, h2, h3⟩ := h
      obtain ⟨l, hl1, hl2⟩ := ih h3 (c := fun i => c (i + 1)) hc'
      refine ⟨l, hl1, ?_⟩
      rw [h2, mul_zero, add_zero]
      exact hl2
    | some D =>
      obtain ⟨h1, h2, h4, h3⟩ := h
      obtain ⟨l, hl1, hl2⟩ := ih h3 (c := fun i => c (i + 1)) hc'
      have h0 : df.specKw name a k = .ok (fin (c 0)) := hc 0 (name, p, some D) rfl (by simp)
      refine ⟨(fin (c 0), D) :: l, by simp only [docKwTerms, h0, hl1]; rfl, ?_⟩
      rw [add_comm]
      exact (h4.smul (c 0)).add hl2

/-- A call of a wrapped function. -/
theorem docCall_follows {v : VarId} {t0 : ℝ} {df : WrapDef NR} {av : List (Seen NR)}
    {kv : List (String × Seen NR)} {γ1 γ2 : ℕ → ℝ → ℝ} {γ1' γ2' : ℕ → ℝ}
    (h1 : Curves v t0 av γ1 γ1') (h2 : Curves v t0 (kv.map Prod.snd) γ2 γ2')
    (hs : anyUnc av kv = true →
      ∃ c, DiffAt df.f av kv c ∧
        (∀ i a, av[i]? = some a → a.2 ≠ none →
          df.specPos i (av.map Prod.fst) (kv.map fun p => (p.1, p.2.1)) = .ok (fin (c i))) ∧
        (∀ i p, kv[i]? = some p → p.2.2 ≠ none →
          df.specKw p.1 (av.map Prod.fst) (kv.map fun p => (p.1, p.2.1)) = .ok (fin (c (av.length + i)))))
    {r : Seen NR} (hr : docCall df av kv = .ok r) :
    Follows v t0 (fun t => valueOf (df.f (movedArgs av (fun i => γ1 i t)) (movedKw kv (fun i => γ2 i t)))) r := by
  unfold docCall at hr
  simp only at hr
  by_cases hu : anyUnc av kv = true
  · obtain ⟨c, hd, hp, hk⟩ := hs hu
    obtain ⟨G, hG1, hG2⟩ := hd.along h1 h2
    have h0 := hG1.self_of_nhds
    rw [h1.movedArgs, h2.movedKw] at h0
    obtain ⟨l1, e1, c1⟩ := docPosTerms_coef h1 (pos := 0) (c := c) (df := df)
      (a := av.map Prod.fst) (k := kv.map fun p => (p.1, p.2.1)) (by simpa using hp)
    obtain ⟨l2, e2, c2⟩ := docKwTerms_coef h2 (c := fun i => c (av.length + i)) (df := df)
      (a := av.map Prod.fst) (k := kv.map fun p => (p.1, p.2.1)) hk
    rw [h0] at hr
    simp only [Bind.bind, Except.bind, hu, Bool.true_eq_false, if_false, PyVal.floatLike, e1, e2,
      PyVal.toFloat] at hr
    cases hr
    exact ⟨G, _, rfl, hG1.mono fun t ht => by simp only [ht, valueOf], hG2, c1.append c2⟩
  · have hu' : anyUnc av kv = false := by simpa using hu
    have hu2 := hu'
    unfold anyUnc at hu2
    rw [Bool.or_eq_false_iff] at hu2
    cases hf : df.f (av.map Prod.fst) (kv.map fun p => (p.1, p.2.1)) with
    | error e => rw [hf] at hr; cases hr
    | ok w =>
      rw [hf] at hr
      simp only [Bind.bind, Except.bind, hu', if_true] at hr
      cases hr
      simp only [Follows]
      refine Eventually.of_forall fun t => ?_
      simp only [movedArgs_plain hu2.1, movedKw_plain hu2.2, hf, valueOf]

end Unc
