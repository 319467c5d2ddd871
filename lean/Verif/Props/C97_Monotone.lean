import Verif.Lemmas.Monotone
import Verif.Props.C08_Floats

/-!
**C97**: making a variable more uncertain never makes a result more certain. With doubles, this is exact: there is no rounding error
in this comparison.
-/

set_option autoImplicit false

namespace Unc

/-- `a <= b` in Python. -/
def PyLe {F : Type} [PyFloat F] (a b : F) : Prop := PyFloat.ltb a b = true ∨ PyFloat.eqb a b = true

namespace B64

theorem NLe.pyLe {a b : B64} (h : NLe a b) : PyLe a b := by
  cases a with
  | nan => exact h.elim
  | inf c =>
    cases c with
    | true => exact h.elim
    | false =>
      cases b with
      | nan => exact h.elim
      | inf d => cases d <;> [exact .inr rfl; exact h.elim]
      | fin n => exact h.elim
  | fin m =>
    cases b with
    | nan => exact h.elim
    | inf d => cases d <;> [exact .inl rfl; exact h.elim]
    | fin n =>
      rcases h.2.lt_or_eq with h1 | rfl
      · exact .inl (decide_eq_true h1)
      · exact .inr (beq_self_eq_true m)

theorem pyLe_fin {m n : ℤ} (h : PyLe (fin m) (fin n)) : m ≤ n := by
  rcases h with h | h
  · exact (of_decide_eq_true h).le
  · exact (eq_of_beq h).le

theorem NLe.of_pyLe {a b : B64} (h0 : PyLe 0 a) (h : PyLe a b) : NLe a b := by
  cases a with
  | nan => rcases h0 with h | h <;> cases h
  | inf c =>
    cases c with
    | true => rcases h0 with h | h <;> cases h
    | false =>
      cases b with
      | nan => rcases h with h | h <;> cases h
      | inf d =>
        cases d with
        | true => rcases h with h | h <;> cases h
        | false => trivial
      | fin n => rcases h with h | h <;> cases h
  | fin m =>
    have hm : 0 ≤ m := pyLe_fin h0
    cases b with
    | nan => rcases h with h | h <;> cases h
    | inf d =>
      cases d with
      | true => rcases h with h | h <;> cases h
      | false => exact hm
    | fin n => exact ⟨hm, pyLe_fin h⟩

theorem pyLe_refl {a : B64} (h : a ≠ nan) : PyLe a a := by
  cases a with
  | nan => exact (h rfl).elim
  | inf c => exact .inr (by cases c <;> rfl)
  | fin m => exact .inr (beq_self_eq_true m)

theorem PyLe.ne_nan {a b : B64} (h : PyLe a b) : a ≠ nan ∧ b ≠ nan := by
  constructor
  · rintro rfl; rcases h with h | h <;> cases h
  · rintro rfl; cases a <;> rcases h with h | h <;> cases h

theorem NLe.trans {a b c : B64} (h1 : NLe a b) (h2 : NLe b c) : NLe a c := by
  cases a with
  | nan => exact h1.elim
  | inf p =>
    cases p with
    | true => exact h1.elim
    | false =>
      cases b with
      | nan => exact h1.elim
      | inf q => cases q <;> [exact h2; exact h1.elim]
      | fin n => exact h1.elim
  | fin m =>
    cases b with
    | nan => exact h1.elim
    | inf q =>
      cases q with
      | true => exact h1.elim
      | false =>
        cases c with
        | nan => exact h2.elim
        | inf r => cases r <;> [exact h1; exact h2.elim]
        | fin k => exact h2.elim
    | fin n =>
      cases c with
      | nan => exact h2.elim
      | inf r => cases r <;> [exact h1.1; exact h2.elim]
      | fin k => exact ⟨h1.1, h1.2.trans h2.2⟩

end B64

/-- What `x.std_dev` (or `x.s`) is before uncertainties are increased, if it is `s'` afterwards. -/
def NotMore (before : Out B64) (s' : B64) : Prop :=
  (∃ s, before = .val (.flt s) ∧ PyLe s s') ∨ (s' = .inf false ∧ before = .err .overflowError)

/-- The program `cs'` is `cs`, followed by assignments `x.std_dev = std` that increase standard deviations (or do not change them). -/
inductive Increases (cs : List (Cmd B64)) : List (Cmd B64) → Prop
  | refl : Increases cs cs
  | step {cs' : List (Cmd B64)} {x : Arg B64} {old std : B64} (h : Increases cs cs') (hold : sees cs' (.stdDev x) = .val (.flt old))
      (h0 : PyLe 0 old) (hle : PyLe old std) (hdone : sees cs' (.setStd x std) = .done) : Increases cs (cs' ++ [.setStd x std])

theorem increase_state {cs : List (Cmd B64)} {x : Arg B64} {old std : B64} (hold : sees cs (.stdDev x) = .val (.flt old))
    (h0 : PyLe 0 old) (hle : PyLe old std) (hdone : sees cs (.setStd x std) = .done) :
    ∃ V, after (cs ++ [.setStd x std]) = ⟨(after cs).w.withV V, (after cs).env⟩ ∧ ∀ k < (after cs).w.vars.length, ∃ c c',
      (after cs).w.vars[k]? = some c ∧ V[k]? = some c' ∧ (c.std = c'.std ∨ B64.NLe c.std c'.std) := by
  have hm := MShape.after cs
  cases hu : x.evalUnc (after cs).env with
  | none => simp [sees, Machine.step, Machine.read, hu, Machine.invalid] at hdone
  | some u =>
    have hval := hm.evalUnc hu
    cases hv : u.var with
    | none => simp [sees, Machine.step, Machine.read, hu, World.assignStd, hv, mapRes, Except.map] at hdone
    | some v =>
      obtain ⟨cell, hc, -, -⟩ := hval.2 v hv
      have hold' : cell.std = old := by
        simp only [sees, Machine.step, evalUnc_eval_floats hu, World.stdDevOf, World.stdDev, hv, hc] at hold
        simpa using hold
      subst hold'
      have hlt : v < (after cs).w.vars.length := (List.getElem?_eq_some_iff.mp hc).1
      have hnle := B64.NLe.of_pyLe h0 hle
      refine ⟨(after cs).w.vars.set v { cell with std := std }, ?_, ?_⟩
      · rw [after_snoc']
        simp only [sees, Machine.step, Machine.read, hu, World.assignStd, hv, World.setStd, hc] at hdone ⊢
        cases hb : (PyFloat.ltb std 0 && !PyFloat.isInf std) with
        | true => simp [hb, mapRes, Except.map] at hdone
        | false => simp [mapRes, Except.map, World.withV]
      · intro k hk
        by_cases hkv : k = v
        · subst hkv
          exact ⟨cell, _, hc, List.getElem?_set_self hlt, .inr hnle⟩
        · refine ⟨_, _, List.getElem?_eq_getElem hk, ?_, .inl rfl⟩
          rw [List.getElem?_set_ne (Ne.symm hkv), List.getElem?_eq_getElem hk]

theorem Increases.state {cs cs' : List (Cmd B64)} (h : Increases cs cs') :
    ∃ V, after cs' = ⟨(after cs).w.withV V, (after cs).env⟩ ∧ ∀ k < (after cs).w.vars.length, ∃ c c',
      (after cs).w.vars[k]? = some c ∧ V[k]? = some c' ∧ (c.std = c'.std ∨ B64.NLe c.std c'.std) := by
  induction h with
  | refl => exact ⟨(after cs).w.vars, rfl, fun k hk => ⟨_, _, List.getElem?_eq_getElem hk, List.getElem?_eq_getElem hk, .inl rfl⟩⟩
  | step h hold h0 hle hdone ih =>
    obtain ⟨V, h1, h2⟩ := ih
    obtain ⟨V', h3, h4⟩ := increase_state hold h0 hle hdone
    refine ⟨V', by rw [h3, h1]; rfl, fun k hk => ?_⟩
    obtain ⟨c, c', e1, e2, e3⟩ := h2 k hk
    rw [h1] at h4
    obtain ⟨d, d', f1, f2, f3⟩ := h4 k (List.getElem?_eq_some_iff.mp e2).1
    have : c' = d := by
      have f1 : V[k]? = some d := f1
      rw [e2] at f1
      cases f1; rfl
    subst this
    refine ⟨c, d', e1, f2, ?_⟩
    rcases e3 with e3 | e3
    · rw [e3]; exact f3
    · rcases f3 with f3 | f3
      · rw [← f3]; exact .inr e3
      · exact .inr (e3.trans f3)

/-- **C97**: after any history, if the standard deviations of variables are increased, the standard deviation of any result `y` was
not larger before. (Before, the calculation of `y.std_dev` possibly raised an OverflowError, but only if the new result is
infinite.) -/
theorem C97_increases (cs cs' : List (Cmd B64)) (h : Increases cs cs') (y : Arg B64) (s' : B64) (hn : s' ≠ .nan) :
    (sees cs' (.stdDev y) = .val (.flt s') → NotMore (sees cs (.stdDev y)) s') ∧
    (sees cs' (.s y) = .val (.flt s') → NotMore (sees cs (.s y)) s') := by
  have hm := MShape.after cs
  obtain ⟨V, hstep, hV⟩ := h.state
  have haff : ∀ uy, y.evalUnc (after cs).env = some uy →
      (((after cs).w.withV V).affStdDev uy).2 = .ok s' →
      (∃ s, ((after cs).w.affStdDev uy).2 = .ok s ∧ PyLe s s') ∨
        (s' = .inf false ∧ ((after cs).w.affStdDev uy).2 = .error .overflowError) := by
    intro uy hy hs
    obtain ⟨w', d, h1, h2, h3⟩ := World.derivatives_shape hm.shape (hm.evalUnc hy)
    rcases B64.affStdDev_mono h1 h2.vars (fun k hk => hV k (h3 k hk)) hs hn with ⟨s, h4, h5⟩ | ⟨rfl, h4⟩
    · exact .inl ⟨s, h4, h5.pyLe⟩
    · exact .inr ⟨rfl, h4⟩
  refine ⟨fun h => ?_, fun h => ?_⟩
  · simp only [sees, hstep, Machine.step] at h
    cases hy : y.eval (after cs).env with
    | none => simp [hy, Machine.invalid] at h
    | some vy =>
      simp only [hy] at h
      simp only [NotMore, sees, Machine.step, hy]
      cases vy with
      | plain p =>
        simp only [World.stdDevOf] at h ⊢
        have : s' = 0 := by simpa using h.symm
        subst this
        exact .inl ⟨0, rfl, .inr rfl⟩
      | unc uy =>
        have hy' : y.evalUnc (after cs).env = some uy := by simp [Arg.evalUnc, hy]
        simp only [World.stdDevOf, World.stdDev] at h ⊢
        cases hvy : uy.var with
        | none =>
          simp only [hvy] at h ⊢
          have hs := haff uy hy'
          generalize (World.affStdDev _ uy) = r at h hs
          obtain ⟨r1, r2⟩ := r
          cases r2 with
          | error e => simp at h
          | ok s2 =>
            have : s2 = s' := by simpa using h
            subst this
            have hs := hs rfl
            generalize (after cs).w.affStdDev uy = q at hs ⊢
            obtain ⟨q1, q2⟩ := q
            rcases hs with ⟨s, e1, e2⟩ | ⟨e1, e2⟩
            · simp only at e1; subst e1; exact .inl ⟨s, rfl, e2⟩
            · simp only at e2; subst e2; exact .inr ⟨e1, rfl⟩
        | some k =>
          simp only [hvy] at h ⊢
          obtain ⟨ck, hck, -, -⟩ := (hm.evalUnc hy').2 k hvy
          have hk : k < (after cs).w.vars.length := (List.getElem?_eq_some_iff.mp hck).1
          obtain ⟨c, c', e1, e2, e3⟩ := hV k hk
          simp only [World.withV, e2] at h
          have : c'.std = s' := by simpa using h
          subst this
          simp only [e1]
          refine .inl ⟨c.std, rfl, ?_⟩
          rcases e3 with e3 | e3
          · rw [e3]; exact B64.pyLe_refl hn
          · exact e3.pyLe
  · simp only [sees, hstep, Machine.step, Machine.read] at h
    cases hy : y.evalUnc (after cs).env with
    | none => simp [hy, Machine.invalid] at h
    | some uy =>
      simp only [hy] at h
      simp only [NotMore, sees, Machine.step, Machine.read, hy]
      have hs := haff uy hy
      generalize (World.affStdDev _ uy) = r at h hs
      obtain ⟨r1, r2⟩ := r
      cases r2 with
      | error e => simp [mapRes, Except.map] at h
      | ok s2 =>
        have : s2 = s' := by simpa [mapRes, Except.map] using h
        subst this
        have hs := hs rfl
        generalize (after cs).w.affStdDev uy = q at hs ⊢
        obtain ⟨q1, q2⟩ := q
        rcases hs with ⟨s, e1, e2⟩ | ⟨e1, e2⟩
        · simp only at e1; subst e1; exact .inl ⟨s, rfl, e2⟩
        · simp only at e2; subst e2; exact .inr ⟨e1, rfl⟩

/-- **C97**, for a single variable `x`. -/
theorem C97_increase (cs : List (Cmd B64)) (x y : Arg B64) (old std s' : B64) (hold : sees cs (.stdDev x) = .val (.flt old))
    (h0 : PyLe 0 old) (hle : PyLe old std) (hdone : sees cs (.setStd x std) = .done) (hn : s' ≠ .nan) :
    (sees (cs ++ [.setStd x std]) (.stdDev y) = .val (.flt s') → NotMore (sees cs (.stdDev y)) s') ∧
    (sees (cs ++ [.setStd x std]) (.s y) = .val (.flt s') → NotMore (sees cs (.s y)) s') :=
  C97_increases cs _ (Increases.refl.step hold h0 hle hdone) y s' hn

/-! ### Examples -/

/-- The float that a program sees. -/
def Out.float? : Out B64 → Option B64
  | .val (.flt y) => some y
  | _ => none

theorem Out.float?_some {o : Out B64} {y : B64} (h : o.float? = some y) : o = .val (.flt y) := by
  unfold Out.float? at h
  split at h
  · cases h; rfl
  · cases h

/-- `x = ufloat(1, 0.5)`, `y = ufloat(3, 0.25)`, `z = x*y`. -/
def exIncrease : List (Cmd B64) :=
  [.ufloat (.fin (2 ^ 1074)) (.fin (2 ^ 1073)) none, .ufloat (.fin (3 * 2 ^ 1074)) (.fin (2 ^ 1072)) none,
    .binop .mul (.ref 0) (.ref 1)]

/-- The hypotheses of `C97_increase`, for `z` when `x.std_dev` is changed to 2: `z.std_dev` is finite before and after, and it
increases. -/
example : sees exIncrease (.stdDev (.ref 0)) = .val (.flt (.fin (2 ^ 1073))) ∧ PyLe 0 (.fin (2 ^ 1073) : B64) ∧
    PyLe (.fin (2 ^ 1073) : B64) (.fin (2 ^ 1075)) ∧
    (match sees exIncrease (.setStd (.ref 0) (.fin (2 ^ 1075))) with | .done => true | _ => false) = true ∧
    (match (sees exIncrease (.stdDev (.ref 2))).float?,
        (sees (exIncrease ++ [.setStd (.ref 0) (.fin (2 ^ 1075))]) (.stdDev (.ref 2))).float? with
      | some s, some s' => PyFloat.ltb s s' && !PyFloat.isInf s'
      | _, _ => false) = true :=
  ⟨Out.float?_some (by decide +kernel), .inl (by decide +kernel), .inl (by decide +kernel), by decide +kernel, by decide +kernel⟩

/-- `x = ufloat(0, 2**600)`, `y = 1*x`. -/
def exTooLarge : List (Cmd B64) := [.ufloat 0 (.fin (2 ^ 1674)) none, .binop .mul (.const (.flt 1)) (.ref 0)]

/-- **C97**: the exception about OverflowError is necessary. With `x = ufloat(0, 2**600)` and `y = 1*x`, reading `y.std_dev` raises an
OverflowError, but its value is infinity after `x.std_dev = inf`. -/
theorem C97_overflow : sees exTooLarge (.stdDev (.ref 1)) = .err .overflowError ∧
    sees (exTooLarge ++ [.setStd (.ref 0) (.inf false)]) (.stdDev (.ref 1)) = .val (.flt (.inf false)) := by
  have h : ∀ o : Out B64, (match o with | .err .overflowError => true | _ => false) = true → o = .err .overflowError := by
    intro o ho
    split at ho
    · rfl
    · cases ho
  exact ⟨h _ (by decide +kernel), Out.float?_some (by decide +kernel)⟩

/-- `x = ufloat(0, -inf)` (which is accepted, see C09), `y = 1*x`. -/
def exMinusInf : List (Cmd B64) := [.ufloat 0 (.inf true) none, .binop .mul (.const (.flt 1)) (.ref 0)]

/-- **C97**: idem for the hypothesis that the standard deviation of `x` is not negative. -/
theorem C97_minus_infinity : sees exMinusInf (.stdDev (.ref 0)) = .val (.flt (.inf true)) ∧ PyLe (.inf true : B64) 1 ∧
    sees exMinusInf (.stdDev (.ref 1)) = .val (.flt (.inf false)) ∧
    sees (exMinusInf ++ [.setStd (.ref 0) 1]) (.stdDev (.ref 1)) = .val (.flt 1) :=
  ⟨Out.float?_some (by decide +kernel), .inl rfl, Out.float?_some (by decide +kernel), Out.float?_some (by decide +kernel)⟩

end Unc
