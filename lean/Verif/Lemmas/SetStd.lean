import Verif.Lemmas.Shape4
import Verif.Lemmas.RoundingCopy
import Verif.Lemmas.RoundingStd
import Verif.Lemmas.RoundingCov

/-
What is read on quantities, in terms of their derivatives and of the standard deviations of their
variables, for any arithmetic; and what a change of standard deviation leaves unchanged.
-/

namespace Unc

set_option autoImplicit false
set_option linter.unusedSectionVars false

section world
variable {F : Type} [PyOps F]

/-- The same objects, with other variables. -/
def World.withV (w : World F) (V : List (VarCell F)) : World F := { w with vars := V }

theorem World.derivatives_withV (w : World F) (V : List (VarCell F)) (u : UF F) :
    (w.withV V).derivatives u = ((w.derivatives u).1.withV V, (w.derivatives u).2) := rfl

theorem lookup_of_key {d : Derivs F} {v : VarId} (h : v ∈ d.map Prod.fst) : ∃ a, d.lookup v = some a := by
  induction d with
  | nil => simp at h
  | cons p d ih =>
    obtain ⟨u, x⟩ := p
    rw [lookup_cons]
    by_cases hv : v = u
    · subst hv; exact ⟨x, by simp⟩
    · simp only [List.map_cons, List.mem_cons, hv, false_or] at h
      obtain ⟨a, ha⟩ := ih h
      exact ⟨a, by simp [hv, ha]⟩

theorem errorLoop_congr {V V' : List (VarCell F)} (d : Derivs F)
    (h : ∀ v ∈ d.map Prod.fst, (V[v]?).map VarCell.std = (V'[v]?).map VarCell.std) : errorLoop V d = errorLoop V' d := by
  induction d with
  | nil => rfl
  | cons p d ih =>
    obtain ⟨v, x⟩ := p
    have hv := h v (by simp)
    have := ih (fun u hu => h u (by simp only [List.map_cons, List.mem_cons]; exact Or.inr hu))
    simp only [errorLoop, this]
    cases h1 : V[v]? with
    | none =>
      cases h2 : V'[v]? with
      | none => rfl
      | some c' => rw [h1, h2] at hv; cases hv
    | some c =>
      cases h2 : V'[v]? with
      | none => rw [h1, h2] at hv; cases hv
      | some c' =>
        rw [h1, h2] at hv
        simp only [Option.map_some, Option.some.injEq] at hv
        simp only [hv]

theorem World.errorComponents_withV {w : World F} {V : List (VarCell F)} {u : UF F} {w' : World F} {d : Derivs F}
    (hd : w.derivatives u = (w', .ok d)) (hw : w'.vars = w.vars)
    (h : ∀ v ∈ d.map Prod.fst, (V[v]?).map VarCell.std = (w.vars[v]?).map VarCell.std) :
    (w.withV V).errorComponents u = ((w.errorComponents u).1.withV V, (w.errorComponents u).2) := by
  simp only [World.errorComponents, World.derivatives_withV, hd]
  simp only [World.withV, hw, errorLoop_congr d h]

theorem World.affStdDev_withV {w : World F} {V : List (VarCell F)} {u : UF F} {w' : World F} {d : Derivs F}
    (hd : w.derivatives u = (w', .ok d)) (hw : w'.vars = w.vars)
    (h : ∀ v ∈ d.map Prod.fst, (V[v]?).map VarCell.std = (w.vars[v]?).map VarCell.std) :
    (w.withV V).affStdDev u = ((w.affStdDev u).1.withV V, (w.affStdDev u).2) := by
  simp only [World.affStdDev, World.errorComponents_withV hd hw h]
  generalize w.errorComponents u = r
  obtain ⟨w1, r⟩ := r
  cases r with
  | error e => rfl
  | ok c =>
    simp only
    cases sumSquares (c.map Prod.snd) 0 <;> rfl

theorem World.stdDev_withV {w : World F} {V : List (VarCell F)} {u : UF F} {w' : World F} {d : Derivs F}
    (hd : w.derivatives u = (w', .ok d)) (hw : w'.vars = w.vars)
    (h : ∀ v ∈ d.map Prod.fst, (V[v]?).map VarCell.std = (w.vars[v]?).map VarCell.std)
    (hu : ∀ v, u.var = some v → v ∈ d.map Prod.fst) :
    (w.withV V).stdDev u = ((w.stdDev u).1.withV V, (w.stdDev u).2) := by
  unfold World.stdDev
  cases hv : u.var with
  | none => exact World.affStdDev_withV hd hw h
  | some v =>
    have := h v (hu v hv)
    simp only [World.withV]
    cases h1 : V[v]? with
    | none =>
      cases h2 : w.vars[v]? with
      | none => rfl
      | some c' => rw [h1, h2] at this; cases this
    | some c =>
      cases h2 : w.vars[v]? with
      | none => rw [h1, h2] at this; cases this
      | some c' =>
        rw [h1, h2] at this
        simp only [Option.map_some, Option.some.injEq] at this
        simp only [this]

theorem World.stdScore_withV {w : World F} {V : List (VarCell F)} {u : UF F} {w' : World F} {d : Derivs F}
    (hd : w.derivatives u = (w', .ok d)) (hw : w'.vars = w.vars)
    (h : ∀ v ∈ d.map Prod.fst, (V[v]?).map VarCell.std = (w.vars[v]?).map VarCell.std)
    (hu : ∀ v, u.var = some v → v ∈ d.map Prod.fst) (a : F) :
    (w.withV V).stdScore u a = ((w.stdScore u a).1.withV V, (w.stdScore u a).2) := by
  simp only [World.stdScore, World.stdDev_withV hd hw h hu]
  generalize w.stdDev u = r
  obtain ⟨w1, r⟩ := r
  cases r with
  | error e => cases e <;> rfl
  | ok s =>
    simp only
    cases hq : PyFloat.truediv (a - u.nom) s with
    | error e => cases e <;> rfl
    | ok q => rfl

/-- The derivatives of a variable. -/
theorem World.derivatives_var {w : World F} (h : Shape w) {u : UF F} (hu : u.Valid w) {v : VarId} (hv : u.var = some v) :
    w.derivatives u = (w, .ok [(v, 1)]) := by
  obtain ⟨cell, h1, h2, -⟩ := hu.2 v hv
  have := h.vars v cell h1
  rw [h2] at this
  simp only [World.derivatives, readDerivs, this]

theorem covElem_congr {V V' : List (VarCell F)} {v : VarId}
    (hV : ∀ k, k ≠ v → (V[k]?).map VarCell.std = (V'[k]?).map VarCell.std) (d2 d1 : Derivs F) (acc : F)
    (h : v ∉ d1.map Prod.fst ∨ d2.lookup v = none) : covElem V d2 d1 acc = covElem V' d2 d1 acc := by
  induction d1 generalizing acc with
  | nil => rfl
  | cons p d ih =>
    obtain ⟨k, x⟩ := p
    have h' : v ∉ d.map Prod.fst ∨ d2.lookup v = none := by
      refine h.imp (fun h hm => h ?_) id
      simp only [List.map_cons, List.mem_cons]; exact Or.inr hm
    simp only [covElem]
    cases hk : d2.lookup k with
    | none => exact ih acc h'
    | some b =>
      have hne : k ≠ v := by
        rintro rfl
        rcases h with h | h
        · exact h (by simp)
        · rw [hk] at h; cases h
      have hv := hV k hne
      cases h1 : V[k]? with
      | none =>
        cases h2 : V'[k]? with
        | none => rfl
        | some c' => rw [h1, h2] at hv; cases hv
      | some c =>
        cases h2 : V'[k]? with
        | none => rw [h1, h2] at hv; cases hv
        | some c' =>
          rw [h1, h2] at hv
          simp only [Option.map_some, Option.some.injEq] at hv
          simp only [hv]
          cases PyFloat.sq c'.std with
          | error e => rfl
          | ok s => exact ih _ h'

end world

section rounded
variable {F : Type} [PyOps F] [Rounded F]

theorem DictOK.none_iff {x : Option F} {I : Option Info} (h : DictOK x I) : x = none ↔ I = none := by
  have := h.isSome
  cases x <;> cases I <;> simp_all

theorem covRow_withV {g : NodeId → Grad} {v : VarId} {V : List (VarCell F)} {d1 : Derivs F} (us : List (UF F)) {w w1 w2 : World F}
    (hw : RndInv w g) (hV : ∀ k, k ≠ v → (V[k]?).map VarCell.std = (w.vars[k]?).map VarCell.std)
    (hus : ∀ u ∈ us, u.Valid w) {l l' : List F} (h : World.covRow d1 us w = (w1, .ok l))
    (h' : World.covRow d1 us (w.withV V) = (w2, .ok l')) :
    w2 = w1.withV V ∧ REv w g w1 g ∧ ∀ (k : Nat) (u : UF F), us[k]? = some u →
      v ∉ d1.map Prod.fst ∨ g u.lin v = none → l'[k]? = l[k]? := by
  induction us generalizing w l l' with
  | nil =>
    simp only [World.covRow, Prod.mk.injEq, Except.ok.injEq] at h h'
    obtain ⟨rfl, rfl⟩ := h
    obtain ⟨rfl, rfl⟩ := h'
    exact ⟨rfl, REv.refl hw, by simp⟩
  | cons u us ih =>
    obtain ⟨w0, d2, a1, a2, a3, a4, a5⟩ := World.derivatives_rounded hw (hus u (by simp))
    have hvars := a2.reads.vars
    simp only [World.covRow, World.derivatives_withV, a1] at h h'
    split at h
    · simp at h
    · rename_i x hx
      split at h
      · simp at h
      · rename_i w3 l3 hr
        simp only [Prod.mk.injEq, Except.ok.injEq] at h
        obtain ⟨rfl, rfl⟩ := h
        split at h'
        · simp at h'
        · rename_i x' hx'
          split at h'
          · simp at h'
          · rename_i w4 l4 hr'
            simp only [Prod.mk.injEq, Except.ok.injEq] at h'
            obtain ⟨rfl, rfl⟩ := h'
            obtain ⟨b1, b2, b3⟩ := ih a2.inv (by rw [hvars]; exact hV)
              (fun u' hu' => UF.Valid.grows a2.reads.grows (hus u' (by simp [hu']))) hr hr'
            refine ⟨b1, a2.trans b2, fun k u' hk hor => ?_⟩
            cases k with
            | succ k => simpa using b3 k u' (by simpa using hk) hor
            | zero =>
              simp only [List.getElem?_cons_zero, Option.some.injEq] at hk ⊢
              subst hk
              have := covElem_congr (V := V) (V' := w.vars) hV d2 d1 0 (hor.imp id (fun e => ((a4 v).none_iff).mpr e))
              simp only [World.withV] at hx'
              rw [hvars] at hx
              rw [this, hx] at hx'
              cases hx'
              rfl

theorem covRows_withV {g : NodeId → Grad} {v : VarId} {V : List (VarCell F)} (us done : List (UF F)) {w w1 w2 : World F}
    (hw : RndInv w g) (hV : ∀ k, k ≠ v → (V[k]?).map VarCell.std = (w.vars[k]?).map VarCell.std)
    (hus : ∀ u ∈ us, u.Valid w) (hdone : ∀ u ∈ done, u.Valid w) {rows rows' : List (List F)}
    (h : World.covRows done us w = (w1, .ok rows)) (h' : World.covRows done us (w.withV V) = (w2, .ok rows')) :
    ∀ (i j : Nat) (u1 u2 : UF F), us[i]? = some u1 → (done ++ us)[j]? = some u2 → j ≤ done.length + i →
      g u1.lin v = none ∨ g u2.lin v = none → entry rows' i j = entry rows i j := by
  induction us generalizing done w rows rows' with
  | nil => simp
  | cons u us ih =>
    obtain ⟨w0, d1, a1, a2, a3, a4, a5⟩ := World.derivatives_rounded hw (hus u (by simp))
    simp only [World.covRows, World.derivatives_withV, a1] at h h'
    have v1 : ∀ u' ∈ done ++ [u], u'.Valid w0 := by
      intro u' hu'
      rcases List.mem_append.mp hu' with hu' | hu'
      · exact UF.Valid.grows a2.reads.grows (hdone u' hu')
      · simp only [List.mem_singleton] at hu'
        subst hu'
        exact UF.Valid.grows a2.reads.grows (hus u' (by simp))
    have hvars := a2.reads.vars
    split at h
    · simp at h
    · rename_i w3 row hrow
      split at h
      · simp at h
      · rename_i w4 rows4 hr
        simp only [Prod.mk.injEq, Except.ok.injEq] at h
        obtain ⟨rfl, rfl⟩ := h
        split at h'
        · simp at h'
        · rename_i w5 row' hrow'
          split at h'
          · simp at h'
          · rename_i w6 rows6 hr'
            simp only [Prod.mk.injEq, Except.ok.injEq] at h'
            obtain ⟨rfl, rfl⟩ := h'
            obtain ⟨b1, b2, b3⟩ := covRow_withV (v := v) (done ++ [u]) a2.inv (by rw [hvars]; exact hV) v1 hrow hrow'
            subst b1
            have c := ih (done ++ [u]) b2.inv (by rw [(a2.trans b2).reads.vars]; exact hV)
              (fun u' hu' => UF.Valid.grows (a2.trans b2).reads.grows (hus u' (by simp [hu'])))
              (fun u' hu' => UF.Valid.grows b2.reads.grows (v1 u' hu')) hr hr'
            intro i j u1 u2 hi hj hij hor
            cases i with
            | succ i =>
              simpa [entry] using c i j u1 u2 (by simpa using hi) (by simpa using hj)
                (by simp only [List.length_append, List.length_singleton]; omega) hor
            | zero =>
              simp only [List.getElem?_cons_zero, Option.some.injEq] at hi
              subst hi
              simp only [entry, List.getElem?_cons_zero, Option.bind_some]
              refine b3 j u2 ?_ (hor.imp (fun e hm => ?_) id)
              · rw [List.append_cons, List.getElem?_append_left (by simp; omega)] at hj
                exact hj
              · obtain ⟨p, hp, rfl⟩ := List.mem_map.mp hm
                have h1 := lookup_of_mem_keys a3 hp
                have h2 := ((a4 p.1).none_iff).mpr e
                rw [h1] at h2
                cases h2

theorem covarianceMatrix_withV {g : NodeId → Grad} {v : VarId} {V : List (VarCell F)} (us : List (UF F)) {w w1 w2 : World F}
    (hw : RndInv w g) (hV : ∀ k, k ≠ v → (V[k]?).map VarCell.std = (w.vars[k]?).map VarCell.std)
    (hus : ∀ u ∈ us, u.Valid w) {M M' : List (List F)} (h : w.covarianceMatrix us = (w1, .ok M))
    (h' : (w.withV V).covarianceMatrix us = (w2, .ok M')) :
    ∀ (i j : Nat) (u1 u2 : UF F), us[i]? = some u1 → us[j]? = some u2 →
      g u1.lin v = none ∨ g u2.lin v = none → entry M' i j = entry M i j := by
  simp only [World.covarianceMatrix] at h h'
  split at h
  · simp at h
  · rename_i w3 rows hr
    split at h'
    · simp at h'
    · rename_i w4 rows' hr'
      simp only [Prod.mk.injEq] at h h'
      have key := covRows_withV (v := v) us [] hw hV hus (by simp) hr hr'
      obtain ⟨l1, l2⟩ := covRows_length us [] hr
      obtain ⟨l1', l2'⟩ := covRows_length us [] hr'
      obtain ⟨-, -, e⟩ := symmetrize_entry h.2 (by simpa using l2)
      obtain ⟨-, -, e'⟩ := symmetrize_entry h'.2 (by simpa using l2')
      intro i j u1 u2 hi hj hor
      have hi' := (List.getElem?_eq_some_iff.mp hi).1
      have hj' := (List.getElem?_eq_some_iff.mp hj).1
      rcases Nat.le_total i j with hij | hij
      · rw [(e i j (by omega) (by omega)).1 hij, (e' i j (by omega) (by omega)).1 hij]
        exact key j i u2 u1 hj (by simpa using hi) (by simpa using hij) hor.symm
      · rw [(e i j (by omega) (by omega)).2 hij, (e' i j (by omega) (by omega)).2 hij]
        exact key i j u1 u2 hi (by simpa using hj) (by simpa using hij) hor

end rounded

end Unc
