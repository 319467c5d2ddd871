import Verif.Props.Examples
import Verif.Lemmas.Cov
import Verif.Py.IZ

/-
C08, C09: changes of the standard deviation of variables.
-/

namespace Unc

set_option autoImplicit false
set_option linter.unusedSectionVars false

section
variable {F : Type} [PyMath F] [ExactLin F]

/-- **C08**: after `x.std_dev = std` (which succeeds only if `x` is a variable), for all objects:
nominal values and derivatives are unchanged; `x.std_dev` is `std`; standard deviation, error
components, standard scores and covariances are unchanged for the objects that do not depend on
`x` (which include the other variables). -/
theorem C08_update_locality (cs : List (Cmd F)) (x : Arg F) (std : F)
    (hdone : sees cs (.setStd x std) = .done) :
    ∃ v : VarId, sees cs (.derivatives x) = .dict (Lin.single v) ∧
      let cs' := cs ++ [.setStd x std]
      sees cs' (.stdDev x) = .val (.flt std) ∧
      (∀ y, sees cs' (.nominal y) = sees cs (.nominal y)) ∧
      (∀ y, sees cs' (.derivatives y) = sees cs (.derivatives y)) ∧
      (∀ y D, sees cs (.derivatives y) = .dict D → D v = none →
        sees cs' (.stdDev y) = sees cs (.stdDev y) ∧
        sees cs' (.s y) = sees cs (.s y) ∧
        sees cs' (.errorComponents y) = sees cs (.errorComponents y) ∧
        ∀ a, sees cs' (.stdScore y a) = sees cs (.stdScore y a)) ∧
      (∀ ys M, sees cs (.covarianceMatrix ys) = .matrix M →
        ∃ M', sees cs' (.covarianceMatrix ys) = .matrix M' ∧
          ∀ i j yi yj Di Dj, ys[i]? = some yi → ys[j]? = some yj →
            sees cs (.derivatives yi) = .dict Di → sees cs (.derivatives yj) = .dict Dj →
            Di v = none ∨ Dj v = none → entry M' i j = entry M i j) := by
  obtain ⟨s, hs⟩ := Reaches.exists cs
  obtain ⟨h1, h2⟩ := hs.snoc (.setStd x std) rfl
  rw [hdone] at h1
  simp only [SState.step] at h1 h2
  cases hx : x.sevalUnc s.env with
  | none => simp [hx, SState.invalid] at h1
  | some q =>
    simp only [hx] at h1 h2
    cases hv : q.var with
    | none => simp [hv] at h1
    | some v =>
      simp only [hv] at h1 h2
      cases hb : specBadStd std with
      | true => simp [hb] at h1
      | false =>
        simp only [hb, Bool.false_eq_true, if_false] at h1 h2
        obtain ⟨hg, c, hc, -⟩ := hs.wf.var q (sevalUnc_mem hx) v hv
        have hlt : v < s.vars.length := (List.getElem?_eq_some_iff.mp hc).1
        refine ⟨v, ?_, ?_, ?_, ?_, ?_, ?_⟩
        · rw [(hs.read (c := .derivatives x) rfl).1]
          simp only [SState.step, SState.read, hx, hg]
        · rw [(h2.read (c := .stdDev x) rfl).1]
          have hx' : x.seval s.env = some (.unc q) := by
            simp only [Arg.sevalUnc] at hx
            split at hx
            · rename_i q' e; cases hx; exact e
            · cases hx
          simp [SState.step, hx', specStdDev, hv, List.getElem?_modify, hc, PyRes.out]
        · intro y
          rw [(h2.read (c := .nominal y) rfl).1, (hs.read (c := .nominal y) rfl).1]
          simp only [SState.step]
          split <;> rfl
        · intro y
          rw [(h2.read (c := .derivatives y) rfl).1, (hs.read (c := .derivatives y) rfl).1]
          simp only [SState.step, SState.read]
          split <;> rfl
        · intro y D hD hDv
          obtain ⟨p, hy, hp⟩ := hs.derivatives hD
          subst hp
          have hsd : specStdDev (s.vars.modify v (fun c => { c with std := std })) p =
              specStdDev s.vars p := by
            unfold specStdDev
            cases hpv : p.var with
            | none => simp only [specStd, specVariance_update hDv]
            | some w =>
              have hw := (hs.wf.var p (sevalUnc_mem hy) w hpv).1
              have : w ≠ v := by
                intro e; subst e; rw [hw] at hDv; simp [Lin.single] at hDv
              simp [List.getElem?_modify, Ne.symm this]
          refine ⟨?_, ?_, ?_, ?_⟩
          · rw [(h2.read (c := .stdDev y) rfl).1, (hs.read (c := .stdDev y) rfl).1]
            have hy' : y.seval s.env = some (.unc p) := by
              simp only [Arg.sevalUnc] at hy
              split at hy
              · rename_i q' e; cases hy; exact e
              · cases hy
            simp only [SState.step, hy', hsd]
          · rw [(h2.read (c := .s y) rfl).1, (hs.read (c := .s y) rfl).1]
            simp only [SState.step, SState.read, hy, specStd, specVariance_update hDv]
          · rw [(h2.read (c := .errorComponents y) rfl).1, (hs.read (c := .errorComponents y) rfl).1]
            simp only [SState.step, SState.read, hy, specErrorComponents_update hDv]
          · intro a
            rw [(h2.read (c := .stdScore y a) rfl).1, (hs.read (c := .stdScore y a) rfl).1]
            simp only [SState.step, SState.read, hy, specStdScore, hsd]
        · intro ys M hM
          rw [(hs.read (c := .covarianceMatrix ys) rfl).1] at hM
          rw [(h2.read (c := .covarianceMatrix ys) rfl).1]
          simp only [SState.step] at hM ⊢
          cases he : evalArgs (Arg.sevalUnc s.env) ys with
          | none => simp [he, SState.invalid] at hM
          | some qs =>
            simp only [he, Out.matrix.injEq] at hM ⊢
            refine ⟨_, rfl, ?_⟩
            subst hM
            intro i j yi yj Di Dj hi hj hDi hDj hor
            obtain ⟨pi, hyi, hpi⟩ := hs.derivatives hDi
            obtain ⟨pj, hyj, hpj⟩ := hs.derivatives hDj
            have hqi := evalArgs_getElem he i
            have hqj := evalArgs_getElem he j
            simp only [hi, hj, Option.bind_some, hyi, hyj] at hqi hqj
            rw [entry_map_eq _ _ i j hqi.symm hqj.symm, entry_map_eq _ _ i j hqi.symm hqj.symm]
            rw [specCov_update]
            rw [hpi, hpj]; exact hor

end

/-- The hypothesis of C08 is met; `y` and `z` do not depend on `x`, but `p = x*y` does, and its
standard deviation changes. -/
example : sees exCs (.setStd (.ref 0) (.fin 7)) = .done := by
  have hb : specBadStd (NR.fin 7) = false := by simp [specBadStd, PyFloat.ltb]
  rw [(ex_reaches.snoc (.setStd (.ref 0) (.fin 7)) rfl).1]
  simp [SState.step, exState, Arg.sevalUnc, Arg.seval, hb]

example : sees ([.ufloat (.fin 3) (.fin 4) none, .ufloat (.fin 5) (.fin 3) none,
    .binop .add (.ref 0) (.ref 1)] : List (Cmd ZN)) (.stdDev (.ref 2)) = .val (.flt (.fin 5)) ∧
  sees ([.ufloat (.fin 3) (.fin 4) none, .ufloat (.fin 5) (.fin 3) none,
    .binop .add (.ref 0) (.ref 1), .stdDev (.ref 2), .setStd (.ref 0) (.fin 0)] : List (Cmd ZN))
    (.stdDev (.ref 2)) = .val (.flt (.fin 3)) := ⟨rfl, rfl⟩

/-! ### C09 -/

/-- **C09** (partial: a negative *infinite* standard deviation is accepted, see
`C09_negation_minus_infinity`). For any float arithmetic: `ufloat(n, std)` with a negative, not
infinite `std` raises `NegativeStdDev`, and all the objects are left as they were. -/
theorem C09_ufloat_rejects_partial {F : Type} [PyMath F] (cs : List (Cmd F)) (n std : F)
    (tag : Option String) (hneg : PyFloat.ltb std 0 = true) (hinf : PyFloat.isInf std = false) :
    sees cs (.ufloat n std tag) = .err .negativeStdDev ∧
    (after (cs ++ [.ufloat n std tag])).w = (after cs).w ∧
    ∀ c : Cmd F, c.isRead = true →
      sees (cs ++ [.ufloat n std tag]) c = sees cs c := by
  have hstep : (after cs).step (.ufloat n std tag) =
      (⟨(after cs).w, (after cs).env ++ [none]⟩, .err .negativeStdDev) := by
    simp [Machine.step, World.ufloat, hneg, hinf]
  have ha : after (cs ++ [.ufloat n std tag]) = ⟨(after cs).w, (after cs).env ++ [none]⟩ := by
    rw [after_snoc, hstep]
  have heval : ∀ a : Arg F, a.eval ((after cs).env ++ [none]) = a.eval (after cs).env := by
    intro a
    cases a with
    | const v => rfl
    | ref k =>
      simp only [Arg.eval]
      rcases Nat.lt_trichotomy k (after cs).env.length with h | h | h
      · rw [List.getElem?_append_left h]
      · subst h; simp
      · rw [List.getElem?_eq_none (by simp; omega), List.getElem?_eq_none (by omega)]
  have hunc : ∀ a : Arg F, a.evalUnc ((after cs).env ++ [none]) = a.evalUnc (after cs).env := by
    intro a; simp only [Arg.evalUnc, heval]
  have hargs : ∀ l : List (Arg F), evalArgs (Arg.evalUnc ((after cs).env ++ [none])) l =
      evalArgs (Arg.evalUnc (after cs).env) l := by
    intro l
    induction l with
    | nil => rfl
    | cons a l ih => simp only [evalArgs, hunc, ih]
  refine ⟨by simp [sees, hstep], by rw [ha], ?_⟩
  intro c hc
  unfold sees
  rw [ha]
  generalize hm : after cs = m at *
  cases c <;> simp only [Cmd.isRead, Bool.false_eq_true] at hc <;>
    simp only [Machine.step, Machine.read, heval, hunc, hargs]
  all_goals first
    | rfl
    | (split <;> first | rfl | (split <;> first | rfl | (split <;> rfl)))

/-- **C09** (partial, see above): `x.std_dev = std` with a negative, not infinite `std` raises
`NegativeStdDev` if `x` is a variable (`AttributeError` if `x` is not one), and nothing changes at
all. -/
theorem C09_update_rejects_partial {F : Type} [PyMath F] (cs : List (Cmd F)) (x : Arg F) (std : F)
    (hneg : PyFloat.ltb std 0 = true) (hinf : PyFloat.isInf std = false) :
    after (cs ++ [.setStd x std]) = after cs ∧
    (sees cs (.tag x) ≠ .invalid → sees cs (.setStd x std) = .err .attributeError ∨
      sees cs (.setStd x std) = .err .negativeStdDev) ∧
    (∀ t, sees cs (.tag x) = .tag t → sees cs (.setStd x std) = .err .negativeStdDev) := by
  unfold sees
  rw [after_snoc]
  generalize after cs = m
  simp only [Machine.step, Machine.read]
  cases hx : x.evalUnc m.env with
  | none => simp [Machine.invalid]
  | some u =>
    cases hv : u.var with
    | none => simp [World.assignStd, hv, mapRes, Except.map, World.tag]
    | some v =>
      cases hc : m.w.vars[v]? with
      | none => simp [World.assignStd, hv, World.setStd, hc, mapRes, Except.map, World.tag]
      | some cell =>
        simp [World.assignStd, hv, World.setStd, hc, hneg, hinf, mapRes, Except.map, World.tag]

/-- **C09**, consequence: in exact arithmetic (no infinities), a standard deviation is never negative,
after any history and for any object. -/
theorem C09_std_dev_non_negative {cs : List (Cmd NR)} {x : Arg NR} {std : ℝ}
    (h : sees cs (.stdDev x) = .val (.flt (.fin std))) : 0 ≤ std := by
  obtain ⟨s, hs⟩ := Reaches.exists cs
  cases hx : x.sevalUnc s.env with
  | some q =>
    rw [(hs.stdDev hx).1] at h
    cases hv : specVariance s.vars q.grad with
    | nan => simp [hv] at h
    | fin r => simp [hv] at h; rw [← h]; exact Real.sqrt_nonneg r
  | none =>
    rw [(hs.read (c := .stdDev x) rfl).1] at h
    simp only [SState.step] at h
    split at h
    · cases h
    · rename_i q hq; simp [Arg.sevalUnc, hq] at hx
    · simp at h; exact h.le

/-- **C09**, negation of the full statement: minus infinity is accepted. (`IZ`: integers, NaN and
infinities.) -/
theorem C09_negation_minus_infinity :
    ∃ (cs : List (Cmd IZ)) (std : IZ), PyFloat.ltb std 0 = true ∧
      sees cs (.ufloat (.fin 1) std none) = .done ∧
      sees (cs ++ [.ufloat (.fin 1) std none]) (.stdDev (next cs)) = .val (.flt std) :=
  ⟨[], .inf true, rfl, rfl, rfl⟩

example : sees [] (.ufloat (.fin 3) (.fin (-2)) none) = (.err .negativeStdDev : Out ZN) :=
  (C09_ufloat_rejects_partial [] _ _ none rfl rfl).1

example : sees [.ufloat (.fin 3) (.fin 2) none] (.setStd (.ref 0) (.fin (-2))) =
    (.err .negativeStdDev : Out ZN) :=
  (C09_update_rejects_partial [.ufloat (ZN.fin 3) (ZN.fin 2) none] (.ref 0) _ rfl rfl).2.2 none rfl

end Unc
