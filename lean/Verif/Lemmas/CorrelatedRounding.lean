import Verif.Spec.CorrelatedRounding
import Verif.Lemmas.RoundingCov
import Verif.Lemmas.RoundingCopy
import Verif.Lemmas.CorrRounding
import Verif.Lemmas.Correlated

/-
Correlated values with floating-point numbers: lemmas.
-/

set_option autoImplicit false

namespace Unc

section sums
variable {F : Type} [PyFloat F] [Rounded F]

local notation "U" => (1 + Rounded.u F)
local notation "H" => (Rounded.η F)

/-- Sum of the terms of a covariance, when the derivatives `D1 v`, `D2 v` and the squares of the standard deviations approximate
`E1 v`, `E2 v` and `V v`. -/
theorem covSum_approx {std D1 D2 : VarId → Option F} {E1 E2 V m1 m2 mv : VarId → ℝ} (vs : List VarId)
    (h1 : ∀ v ∈ vs, ∀ a, D1 v = some a → Rounded.Fin a → Majorized (m1 v) (Rounded.val a) (E1 v) |E1 v|)
    (h2 : ∀ v ∈ vs, ∀ a, D2 v = some a → Rounded.Fin a → Majorized (m2 v) (Rounded.val a) (E2 v) |E2 v|)
    (h3 : ∀ v ∈ vs, ∀ s s2, std v = some s → PyFloat.sq s = .ok s2 → Rounded.Fin s2 →
      Majorized (mv v) (Rounded.val s2) (V v) |V v|)
    (hm : ∀ v ∈ vs, 0 ≤ U * ((U * (m1 v * m2 v) + H) * mv v) + H)
    (acc y : F) (X A m : ℝ) (k : ℕ) (hacc : Rounded.Fin acc → Majorized (U ^ k * m) (Rounded.val acc) X A) (hm0 : 0 ≤ m)
    (hy : covSum std D1 D2 vs acc = .ok y) (hf : Rounded.Fin y) :
    Rounded.Fin acc ∧
    Majorized (U ^ (k + vs.length) * (m + (vs.map fun v => U * ((U * (m1 v * m2 v) + H) * mv v) + H).sum)) (Rounded.val y)
      (X + (vs.map fun v => E1 v * E2 v * V v).sum) (A + (vs.map fun v => |E1 v * E2 v * V v|).sum) := by
  induction vs generalizing acc X A m k with
  | nil =>
    simp only [covSum, Except.ok.injEq] at hy
    subst hy
    exact ⟨hf, by simpa using hacc hf⟩
  | cons v vs ih =>
    simp only [covSum] at hy
    split at hy
    · rename_i a b e1 e2
      split at hy
      · cases hy
      · rename_i s e3
        split at hy
        · cases hy
        · rename_i s2 e4
          have hu := Rounded.u_nonneg (F := F)
          have hU : (1 : ℝ) ≤ U := U_one
          have hT0 := hm v (by simp)
          have key : Rounded.Fin (acc + a * b * s2) → Rounded.Fin acc ∧ Majorized (U ^ (k + 1) *
              (m + (U * ((U * (m1 v * m2 v) + H) * mv v) + H))) (Rounded.val (acc + a * b * s2))
              (X + E1 v * E2 v * V v) (A + |E1 v * E2 v * V v|) := by
            intro hf'
            obtain ⟨f1, f2, f3⟩ := Rounded.add _ _ hf'
            obtain ⟨f4, f5, f6⟩ := Rounded.mul _ _ f2
            obtain ⟨f7, f8, f9⟩ := Rounded.mul _ _ f4
            have w1 := h1 v (by simp) a e1 f7
            have w2 := h2 v (by simp) b e2 f8
            have w3 := (w1.mul w2).round hu f9
            have w4 := h3 v (by simp) s s2 e3 e4 f5
            have w5 := (w3.mul w4).round hu f6
            rw [← abs_mul, ← abs_mul] at w5
            have w6 := (hacc f1).add w5 hu f3
            refine ⟨f1, w6.mono ?_⟩
            have hp : (1 : ℝ) ≤ U ^ k := one_le_pow₀ hU
            have hle : U * ((U * (m1 v * m2 v) + H) * mv v) + H ≤ U ^ k * (U * ((U * (m1 v * m2 v) + H) * mv v) + H) :=
              le_mul_of_one_le_left hT0 hp
            rw [pow_succ']
            calc U * (U ^ k * m + (U * ((U * (m1 v * m2 v) + H) * mv v) + H))
                ≤ U * (U ^ k * m + U ^ k * (U * ((U * (m1 v * m2 v) + H) * mv v) + H)) :=
                  mul_le_mul_of_nonneg_left (add_le_add_right hle _) (by linarith)
              _ = U * U ^ k * (m + (U * ((U * (m1 v * m2 v) + H) * mv v) + H)) := by ring
          obtain ⟨r1, r2⟩ := ih (fun w hw => h1 w (by simp [hw])) (fun w hw => h2 w (by simp [hw]))
            (fun w hw => h3 w (by simp [hw])) (fun w hw => hm w (by simp [hw])) (acc + a * b * s2) _ _ _ (k + 1)
            (fun hf' => (key hf').2) (by linarith) hy
          refine ⟨(key r1).1, ?_⟩
          simp only [List.map_cons, List.sum_cons, List.length_cons]
          rw [show k + (vs.length + 1) = k + 1 + vs.length by omega]
          convert r2 using 1
          all_goals ring
    · simp at hy

end sums


section lists
variable {F : Type} [PyMath F] {n : ℕ}

theorem scaleRows_ofRows (Q : Fin n → Fin n → F) (s : Fin n → F) :
    scaleRows (ofRows Q) (List.ofFn s) = .ok (ofRows fun i k => Q i k * s i) := by
  unfold scaleRows
  split
  · rename_i s0 hs
    have h1 : n = 1 := by simpa using congrArg List.length hs
    subst h1
    simp only [List.ofFn_succ, List.ofFn_zero, List.cons.injEq, and_true] at hs
    subst hs
    simp [ofRows]
  · rw [if_pos (by simp [ofRows]), ofRows, zip_ofFn]
    simp [ofRows, List.map_ofFn, Function.comp_def]

/-- The commands and the result of `correlated_values_norm()`. -/
theorem correlatedValuesNorm_fl {eigh : EighFn F} {base : ℕ} {nom s l σ : Fin n → F} {R : List (List F)}
    {Q : Fin n → Fin n → F} {t : Fin n → Option String} {tags : Option (List (Option String))}
    (hn : 0 < n) (he : eigh R = .ok (List.ofFn l, ofRows Q))
    (hσ : ∀ k, PyFloat.sqrt (clampVariance (l k)) = .ok (σ k))
    (ht : tags.getD (List.replicate n none) = List.ofFn t) :
    correlatedValuesNorm eigh base (List.ofFn fun i => (nom i, s i)) R tags =
      .ok ((List.ofFn fun k => Cmd.ufloat 0 (σ k) (t k)) ++
          (List.ofFn fun i => Cmd.affine (nom i) (List.ofFn fun k : Fin n => (Arg.ref (base + k), Q i k * s i))),
        List.ofFn fun i : Fin n => Arg.ref (base + n + i)) := by
  have hne : (List.ofFn fun i => (nom i, s i)).isEmpty = false := by
    cases n with
    | zero => omega
    | succ n => simp [List.ofFn_succ]
  unfold correlatedValuesNorm
  have hv := newVariables_ok (F := F) (List.ofFn fun k : Fin n => k) (fun k => clampVariance (l k)) σ t (by
      intro k _; exact hσ k)
  simp only [List.map_ofFn, Function.comp_def] at hv
  simp only [hne, Bool.false_eq_true, if_false, he, List.map_ofFn, List.length_ofFn, ht, Function.comp_def,
    zip_ofFn, scaleRows_ofRows Q s]
  simp only [hv, List.length_ofFn, range_ofFn, ofRows, zip_ofFn, List.map_ofFn, Function.comp_def]

theorem npDiag_ofRows (C : Fin n → Fin n → F) : npDiag (ofRows C) = List.ofFn fun i => C i i := by
  have hs : ∀ row ∈ ofRows C, row.length = (ofRows C).length := by
    intro row hr
    obtain ⟨i, rfl⟩ := (List.mem_ofFn' _ _).mp hr
    simp [ofRows]
  apply List.ext_getElem?
  intro i
  rw [npDiag_entry hs]
  unfold entry ofRows
  by_cases hi : i < n
  · simp [hi]
  · simp [hi]

theorem correlatedValues_fl {eigh : EighFn F} {base : ℕ} {nom : Fin n → F} {C : Fin n → Fin n → F}
    {tags : Option (List (Option String))} :
    correlatedValues eigh base (List.ofFn nom) (ofRows C) tags =
      correlatedValuesNorm eigh base (List.ofFn fun i => (nom i, npSqrt (C i i)))
        (ofRows (normalizedFl C)) tags := by
  have hsq : (ofRows C).all (fun row => row.length == (ofRows C).length) = true := by
    simp [ofRows]
  unfold correlatedValues
  rw [if_pos hsq]
  simp only [npDiag_ofRows, List.map_ofFn, Function.comp_def, zip_ofFn]
  simp only [ofRows, zip_ofFn, List.map_ofFn, Function.comp_def, normalizedFl, normFl]
  rfl

theorem lookup_ofFn' (f : Fin n → F) (b v : ℕ) :
    (List.ofFn fun k : Fin n => (b + k.val, f k)).lookup v =
      if h : b ≤ v ∧ v - b < n then some (f ⟨v - b, h.2⟩) else none := by
  split_ifs with h
  · apply lookup_of_mem_nodup
    · simp only [List.map_ofFn, Function.comp_def]
      rw [List.nodup_ofFn]
      intro a b hab
      simpa [Fin.ext_iff] using hab
    · rw [List.mem_ofFn']
      exact ⟨⟨v - b, h.2⟩, by simp; omega⟩
  · rw [List.lookup_eq_none_iff]
    intro p hp
    obtain ⟨k, rfl⟩ := (List.mem_ofFn' _ _).mp hp
    have := k.2
    rw [bne_iff_ne]
    change ¬ v = b + k.val
    omega

end lists

section machine
variable {F : Type} [PyMath F] [Halts F] [Rounded F] {n : ℕ}

theorem RRel.snoc' {cs : List (Cmd F)} {g : NodeId → Grad} {s : RState F} (h : RRel g (Unc.after cs) s) {c : Cmd F}
    (hc : c.isCopy = false) : ∃ g', RRel g' (Unc.after (cs ++ [c])) (s.step c) := by
  rw [after_snoc']
  exact Machine.step_rounded h hc

theorem RRel.ufloats {cs : List (Cmd F)} {g : NodeId → Grad} {s : RState F} (h : RRel g (Unc.after cs) s)
    (l : List (F × F × Option String)) (hl : ∀ p ∈ l, specBadStd p.2.1 = false) :
    ∃ g', RRel g' (Unc.after (cs ++ l.map fun p => .ufloat p.1 p.2.1 p.2.2))
      { s with
        vars := s.vars ++ l.map fun p => ⟨p.1, p.2.1⟩
        env := s.env ++ l.mapIdx fun k p =>
          some (.unc ⟨p.1, Grad.single (s.vars.length + k), some (s.vars.length + k)⟩) } := by
  induction l generalizing cs s g with
  | nil => exact ⟨g, by simpa using h⟩
  | cons p l ih =>
    obtain ⟨g1, h1⟩ := h.snoc' (c := .ufloat p.1 p.2.1 p.2.2) rfl
    simp only [RState.step, hl p (by simp), Bool.false_eq_true, if_false] at h1
    obtain ⟨g2, h2⟩ := ih h1 (fun q hq => hl q (by simp [hq]))
    simp only [List.append_assoc, List.cons_append, List.nil_append, List.length_append, List.length_cons,
      List.length_nil] at h2
    exact ⟨g2, by simpa [List.mapIdx_cons, Nat.add_assoc, Nat.add_comm, Nat.add_left_comm] using h2⟩

omit [PyMath F] [Halts F] [Rounded F] in
theorem revalUnc_append {env l : List (Option (RVal F))} {a : Arg F} {q : RQ F} (h : a.revalUnc env = some q) :
    a.revalUnc (env ++ l) = some q := by
  cases a with
  | const v => simp [Arg.revalUnc, Arg.reval] at h
  | ref k =>
    simp only [Arg.revalUnc, Arg.reval] at h ⊢
    cases hk : env[k]? with
    | none => simp [hk] at h
    | some o =>
      rw [List.getElem?_append_left (List.getElem?_eq_some_iff.mp hk).1, hk]
      rw [hk] at h
      exact h

omit [PyMath F] [Halts F] [Rounded F] in
theorem revalItems_append {env l : List (Option (RVal F))} {items : List (Arg F × F)} {d : Derivs F}
    (h : evalArgs (Arg.revalItem env) items = some d) :
    evalArgs (Arg.revalItem (env ++ l)) items = some d := by
  induction items generalizing d with
  | nil => exact h
  | cons p items ih =>
    simp only [evalArgs] at h ⊢
    cases h1 : Arg.revalItem env p with
    | none => simp [h1] at h
    | some x =>
      have h1' : Arg.revalItem (env ++ l) p = some x := by
        unfold Arg.revalItem at h1 ⊢
        cases h2 : p.1.revalUnc env with
        | none => simp [h2] at h1
        | some q => rw [revalUnc_append h2, ← h2]; exact h1
      rw [h1] at h
      cases h2 : evalArgs (Arg.revalItem env) items with
      | none => simp [h2] at h
      | some d' =>
        rw [h2] at h
        rw [h1', ih h2]
        exact h

theorem RRel.affines {cs : List (Cmd F)} {g : NodeId → Grad} {s : RState F} (h : RRel g (Unc.after cs) s)
    (l : List (F × List (Arg F × F) × Derivs F))
    (hl : ∀ p ∈ l, evalArgs (Arg.revalItem s.env) p.2.1 = some p.2.2 ∧ (p.2.2.map Prod.fst).Nodup) :
    ∃ g', RRel g' (Unc.after (cs ++ l.map fun p => .affine p.1 p.2.1))
      { s with env := s.env ++ l.map fun p => some (.unc ⟨p.1, Grad.ofDict p.2.2, none⟩) } := by
  induction l generalizing cs s g with
  | nil => exact ⟨g, by simpa using h⟩
  | cons p l ih =>
    obtain ⟨g1, h1⟩ := h.snoc' (c := .affine p.1 p.2.1) rfl
    obtain ⟨e1, e2⟩ := hl p (by simp)
    simp only [RState.step, e1, e2, if_true] at h1
    obtain ⟨g2, h2⟩ := ih h1 (fun q hq => ⟨revalItems_append (hl q (by simp [hq])).1, (hl q (by simp [hq])).2⟩)
    exact ⟨g2, by simpa using h2⟩

/-- State after `correlated_values_norm()`. -/
theorem RRel.correlated {cs : List (Cmd F)} {g : NodeId → Grad} {s : RState F} (h : RRel g (Unc.after cs) s)
    {nom σ : Fin n → F} {A : Fin n → Fin n → F} {t : Fin n → Option String} (hσ : ∀ k, specBadStd (σ k) = false) :
    ∃ g', RRel g' (Unc.after (cs ++ ((List.ofFn fun k => Cmd.ufloat 0 (σ k) (t k)) ++
          (List.ofFn fun i => Cmd.affine (nom i)
            (List.ofFn fun k : Fin n => (Arg.ref ((Unc.after cs).env.length + k), A i k))))))
      { s with
        vars := s.vars ++ List.ofFn fun k => ⟨0, σ k⟩
        env := (s.env ++ List.ofFn fun k : Fin n =>
            some (.unc ⟨0, Grad.single (s.vars.length + k), some (s.vars.length + k)⟩)) ++
          List.ofFn fun i => some (.unc ⟨nom i,
            Grad.ofDict (List.ofFn fun k : Fin n => (s.vars.length + k.val, A i k)), none⟩) } := by
  have hlen : s.env.length = (Unc.after cs).env.length := by rw [h.env]; simp
  obtain ⟨g1, h1⟩ := h.ufloats (List.ofFn fun k => ((0 : F), σ k, t k)) (by
    intro p hp
    obtain ⟨k, rfl⟩ := (List.mem_ofFn' _ _).mp hp
    exact hσ k)
  have e : (List.ofFn fun k => ((0 : F), σ k, t k)).mapIdx (fun k p =>
      some (RVal.unc ⟨p.1, Grad.single (s.vars.length + k), some (s.vars.length + k)⟩)) =
      List.ofFn fun k : Fin n =>
        some (RVal.unc ⟨(0 : F), Grad.single (s.vars.length + k), some (s.vars.length + k)⟩) := by
    apply List.ext_getElem <;> simp
  rw [e] at h1
  obtain ⟨g2, h2⟩ := h1.affines (List.ofFn fun i : Fin n =>
      (nom i, (List.ofFn fun k : Fin n => (Arg.ref ((Unc.after cs).env.length + k), A i k)),
        List.ofFn fun k : Fin n => (s.vars.length + k.val, A i k))) (by
    intro p hp
    obtain ⟨i, rfl⟩ := (List.mem_ofFn' _ _).mp hp
    constructor
    · refine evalArgs_ofFn _ _ _ (fun k => ?_)
      simp only [Arg.revalItem, Arg.revalUnc, Arg.reval, ← hlen]
      rw [List.getElem?_append_right (by omega)]
      simp
    · simp only [List.map_ofFn, Function.comp_def]
      rw [List.nodup_ofFn]
      intro a b hab
      simpa [Fin.ext_iff] using hab)
  exact ⟨g2, by simpa [List.map_ofFn, Function.comp_def, List.append_assoc] using h2⟩

end machine


section main
variable {F : Type} [PyMath F] [Halts F] [RoundedDiv F] [RoundedSign F] {n : ℕ}

local notation "U" => (1 + Rounded.u F)
local notation "H" => (Rounded.η F)

omit [Halts F] in
theorem clampVariance_rounded {x : F} (h : Rounded.Fin x) : Rounded.Fin (clampVariance x) ∧
    Rounded.val (clampVariance x) = max (Rounded.val x) 0 := by
  unfold clampVariance
  by_cases hx : PyFloat.ltb x 0 = true
  · rw [if_pos hx]
    exact ⟨Rounded.fin_zero, by rw [Rounded.val_zero, max_eq_right (RoundedSign.ltb_neg x h hx).le]⟩
  · rw [if_neg hx]
    exact ⟨h, by rw [max_eq_left (Rounded.ltb_zero x h (by simpa using hx))]⟩

omit [Halts F] in
theorem sqrt_clamp {x : F} (h : Rounded.Fin x) : ∃ σ, PyFloat.sqrt (clampVariance x) = .ok σ ∧ specBadStd σ = false ∧
    Rounded.Fin σ ∧ |Rounded.val σ - √(max (Rounded.val x) 0)| ≤ Rounded.u F * √(max (Rounded.val x) 0) := by
  obtain ⟨h1, h2⟩ := clampVariance_rounded h
  obtain ⟨σ, h3, h4⟩ := RoundedDiv.sqrt_ok _ h1 (by rw [h2]; exact le_max_right _ _)
  obtain ⟨-, -, h5⟩ := Rounded.sqrt _ _ h3 h4
  rw [h2] at h5
  refine ⟨σ, h3, ?_, h4, h5⟩
  unfold specBadStd
  cases hb : PyFloat.ltb σ 0 with
  | false => rfl
  | true =>
    have h6 := RoundedSign.ltb_neg σ h4 hb
    have h7 := (abs_le.1 h5).1
    have h8 := RoundedSign.u_lt_one (F := F)
    have h9 := Real.sqrt_nonneg (max (Rounded.val x) 0)
    nlinarith

omit [Halts F] in
/-- The square of a standard deviation that is a rounded square root. -/
theorem sq_majorized {σ s2 : F} {v : ℝ} (hv : 0 ≤ v) (h : |Rounded.val σ - √v| ≤ Rounded.u F * √v)
    (hs : PyFloat.sq σ = .ok s2) (hf : Rounded.Fin s2) :
    Majorized (U * (U ^ 2 * v) + H) (Rounded.val s2) v |v| := by
  have hu := Rounded.u_nonneg (F := F)
  obtain ⟨-, h1⟩ := Rounded.sq _ _ hs hf
  have w1 : Majorized (U * √v) (Rounded.val σ) √v √v := ⟨by rw [abs_of_nonneg (Real.sqrt_nonneg v)], by linarith⟩
  have w2 := (w1.mul w1).round (x' := Rounded.val s2) hu (η := H) (by
    rw [← sq, abs_of_nonneg (sq_nonneg (Rounded.val σ))]; exact h1)
  rw [Real.mul_self_sqrt hv] at w2
  rw [abs_of_nonneg hv]
  have e : U * √v * (U * √v) = U ^ 2 * v := by
    rw [mul_mul_mul_comm, Real.mul_self_sqrt hv, sq]
  rwa [e] at w2

omit [Halts F] [RoundedSign F] in
/-- A coefficient. -/
theorem coef_majorized {q s x : F} (h : DictOK (some x) (some (Info.smul (q * s)
      { exact := 1, mag := 1, scale := 1, depth := 0, uses := 1, fin := True }))) (hx : Rounded.Fin x) :
    Majorized (coefMax (Rounded.u F) H (Rounded.val q * Rounded.val s)) (Rounded.val x)
      (Rounded.val q * Rounded.val s) |Rounded.val q * Rounded.val s| := by
  have hu := Rounded.u_nonneg (F := F)
  have hη := Rounded.η_nonneg (F := F)
  obtain ⟨hf, -⟩ := h.fin hx
  obtain ⟨-, -, h1⟩ := Rounded.mul _ _ hf
  have h2 := h.near hx
  simp only [Info.smul, mul_one, Nat.zero_add, Nat.add_sub_cancel, pow_one] at h2
  set a := Rounded.val q * Rounded.val s
  set c := Rounded.val (q * s)
  refine ⟨le_rfl, ?_⟩
  have h3 : |c| ≤ U * |a| + H := by
    have := abs_add_le (c - a) a
    rw [sub_add_cancel] at this
    linarith
  have h4 := abs_add_le (Rounded.val x - c) (c - a)
  rw [sub_add_sub_cancel] at h4
  have h5 : max 1 |c| ≤ max 1 (U * |a| + H) := max_le_max le_rfl h3
  unfold coefMax
  have h6 : H * max 1 |c| ≤ H * max 1 (U * |a| + H) := mul_le_mul_of_nonneg_left h5 hη
  have h7 : Rounded.u F * |c| ≤ Rounded.u F * (U * |a| + H) := mul_le_mul_of_nonneg_left h3 hu
  have h8 : U * (H * max 1 |c|) ≤ U * (H * max 1 (U * |a| + H)) := mul_le_mul_of_nonneg_left h6 (by linarith)
  nlinarith

theorem coefMax_nonneg {u η a : ℝ} (hu : 0 ≤ u) (hη : 0 ≤ η) : 0 ≤ coefMax u η a := by
  have : 0 ≤ max 1 ((1 + u) * |a| + η) := le_max_of_le_left zero_le_one
  unfold coefMax
  positivity

omit [Halts F] in
/-- An element of the covariance matrix. -/
theorem covSum_correlated {l σ s : Fin n → F} {Q : Fin n → Fin n → F} {b : ℕ} (hσ : ∀ k,
      |Rounded.val (σ k) - √(max (Rounded.val (l k)) 0)| ≤ Rounded.u F * √(max (Rounded.val (l k)) 0))
    {vars : List (RVar F)} (hvars : vars.length = b) {i j : Fin n} {D1 D2 : VarId → Option F}
    (h1 : ∀ v, DictOK (D1 v) (Grad.ofDict (List.ofFn fun k : Fin n => (b + k.val, Q i k * s i)) v))
    (h2 : ∀ v, DictOK (D2 v) (Grad.ofDict (List.ofFn fun k : Fin n => (b + k.val, Q j k * s j)) v))
    {vs : List VarId} (hn : vs.Nodup) (hall : ∀ v, v ∈ vs ↔ (D1 v).isSome ∧ (D2 v).isSome) {y : F}
    (hy : covSum (fun v => ((vars ++ List.ofFn fun k => (⟨0, σ k⟩ : RVar F))[v]?).map RVar.std) D1 D2 vs 0 = .ok y)
    (hf : Rounded.Fin y) :
    |Rounded.val y - Rounded.val (s i) * Rounded.val (s j) * rebuilt l Q i j| ≤
      correlatedBound (Rounded.u F) H (fun k => Rounded.val (Q i k) * Rounded.val (s i))
        (fun k => Rounded.val (Q j k) * Rounded.val (s j)) (fun k => max (Rounded.val (l k)) 0) := by
  have hu := Rounded.u_nonneg (F := F)
  have hη := Rounded.η_nonneg (F := F)
  have nodup : ∀ A : Fin n → F, KeysNodup (List.ofFn fun k : Fin n => (b + k.val, A k)) := by
    intro A
    unfold KeysNodup
    simp only [List.map_ofFn, Function.comp_def]
    rw [List.nodup_ofFn]
    intro a b hab
    simpa [Fin.ext_iff] using hab
  have look : ∀ (A : Fin n → F) (v : VarId), Grad.ofDict (List.ofFn fun k : Fin n => (b + k.val, A k)) v =
      if h : b ≤ v ∧ v - b < n then some (Info.smul (A ⟨v - b, h.2⟩)
        { exact := 1, mag := 1, scale := 1, depth := 0, uses := 1, fin := True }) else none := by
    intro A v
    rw [Grad.ofDict_apply _ (nodup A), lookup_ofFn']
    split_ifs <;> rfl
  have hmem : ∀ v, v ∈ vs ↔ b ≤ v ∧ v - b < n := by
    intro v
    rw [hall, (h1 v).isSome, (h2 v).isSome, look, look]
    split_ifs with h <;> simp [h]
  have hperm : vs.Perm (List.ofFn fun k : Fin n => b + k.val) := by
    rw [List.perm_ext_iff_of_nodup hn (by
      rw [List.nodup_ofFn]
      intro a b hab
      simpa [Fin.ext_iff] using hab)]
    intro v
    rw [hmem, List.mem_ofFn']
    constructor
    · rintro ⟨h, h'⟩
      exact ⟨⟨v - b, h'⟩, by simp; omega⟩
    · rintro ⟨k, rfl⟩
      have := k.2
      simp
  -- functions of the variables, from functions of the indices
  let at' : (Fin n → ℝ) → VarId → ℝ := fun f v => if h : v - b < n then f ⟨v - b, h⟩ else 0
  have at_eq : ∀ (f : Fin n → ℝ) (k : Fin n), at' f (b + k) = f k := by
    intro f k
    simp [at']
  have D_maj : ∀ (r : Fin n) (D : VarId → Option F),
      (∀ v, DictOK (D v) (Grad.ofDict (List.ofFn fun k : Fin n => (b + k.val, Q r k * s r)) v)) →
      ∀ v ∈ vs, ∀ a, D v = some a → Rounded.Fin a →
        Majorized (at' (fun k => coefMax (Rounded.u F) H (Rounded.val (Q r k) * Rounded.val (s r))) v) (Rounded.val a)
          (at' (fun k => Rounded.val (Q r k) * Rounded.val (s r)) v)
          |at' (fun k => Rounded.val (Q r k) * Rounded.val (s r)) v| := by
    intro r D hD v hv a ha hfa
    have hv' := (hmem v).1 hv
    have h := hD v
    rw [ha, look, dif_pos hv'] at h
    simp only [at', dif_pos hv'.2]
    exact coef_majorized h hfa
  obtain ⟨-, hmaj⟩ := covSum_approx (m1 := at' fun k => coefMax (Rounded.u F) H (Rounded.val (Q i k) * Rounded.val (s i)))
    (m2 := at' fun k => coefMax (Rounded.u F) H (Rounded.val (Q j k) * Rounded.val (s j)))
    (mv := at' fun k => U * (U ^ 2 * max (Rounded.val (l k)) 0) + H)
    (E1 := at' fun k => Rounded.val (Q i k) * Rounded.val (s i))
    (E2 := at' fun k => Rounded.val (Q j k) * Rounded.val (s j))
    (V := at' fun k => max (Rounded.val (l k)) 0) vs (D_maj i D1 h1) (D_maj j D2 h2)
    (by
      intro v hv x x2 hx hx2 hfx
      have hv' := (hmem v).1 hv
      rw [List.getElem?_append_right (by omega)] at hx
      simp only [hvars, List.getElem?_ofFn, hv'.2, dite_true, Option.map_some, Option.some.injEq] at hx
      subst hx
      simp only [at', dif_pos hv'.2]
      exact sq_majorized (le_max_right _ _) (hσ _) hx2 hfx)
    (by
      intro v hv
      have hv' := (hmem v).1 hv
      simp only [at', dif_pos hv'.2]
      have c1 := coefMax_nonneg (a := Rounded.val (Q i ⟨v - b, hv'.2⟩) * Rounded.val (s i)) hu hη
      have c2 := coefMax_nonneg (a := Rounded.val (Q j ⟨v - b, hv'.2⟩) * Rounded.val (s j)) hu hη
      have c3 : 0 ≤ max (Rounded.val (l ⟨v - b, hv'.2⟩)) 0 := le_max_right _ _
      positivity)
    0 y 0 0 0 0 (fun _ => by rw [Rounded.val_zero]; exact ⟨by simp, by simp⟩) le_rfl hy hf
  have sums : ∀ f : VarId → ℝ, (vs.map f).sum = ∑ k : Fin n, f (b + k) := by
    intro f
    rw [(hperm.map f).sum_eq, List.map_ofFn, List.sum_ofFn]
    rfl
  have hlen : vs.length = n := by rw [hperm.length_eq]; simp
  have h3 := hmaj.2
  simp only [sums, at_eq, hlen, zero_add] at h3
  refine le_trans (le_of_eq ?_) (h3.trans (le_of_eq ?_))
  · congr 2
    unfold rebuilt
    rw [Finset.mul_sum]
    exact Finset.sum_congr rfl fun k _ => by ring
  · rfl

end main

end Unc
