import Verif.Lemmas.Concurrent
import Verif.Py.B64
import Verif.Py.IZ
import Verif.Py.ZN
import Verif.Py.NRMath

/-
C89: a thread calculates the error components or the standard deviation of a quantity while other threads change the standard
deviations of variables.
-/

namespace Unc

set_option autoImplicit false

section any
variable {F : Type} [PyMath F] [Halts F]

/-- **C89**. `x.error_components()` returns, whatever the other threads do, once it did some number `N` of operations. -/
theorem C89_returns (cs : List (Cmd F)) (x : Arg F) (D : VarId → Option F) (h : sees cs (.derivatives x) = .dict D) :
    ∃ N, ∀ es : List (Event F), N ≤ es.countP Option.isNone → compsDuring cs x es ≠ none ∧ stdDuring cs x es ≠ none := by
  obtain ⟨u, d, -, hr, -⟩ := during_state h
  refine ⟨2 * d.length + 1, fun es hes => ?_⟩
  obtain ⟨r, e⟩ := (run_result es (after (cs ++ [.derivatives x])) d []).1 hes
  simp only [compsDuring, stdDuring, hr, e, Option.map_some]
  exact ⟨by simp, by simp⟩

/-- What is known about the components. -/
theorem comps_seen {cs : List (Cmd F)} {x : Arg F} {D : VarId → Option F} (h : sees cs (.derivatives x) = .dict D)
    {es : List (Event F)} {r : PyRes (Derivs F)} (hes : (after cs).compsDuring x es = some r) :
    ∃ d l, r = .ok l ∧ (∀ v, d.lookup v = D v) ∧
      List.Forall₂ (Seen2 (after (cs ++ [.derivatives x])) es) d l := by
  obtain ⟨u, d, h5, hr, hp⟩ := during_state h
  rw [hr] at hes
  obtain ⟨l, e1, e2⟩ := (run_seen es (after (cs ++ [.derivatives x])) d [] r (fun v hv p _ => by
    rw [(hp p).2.2.1]; exact (hp p).2.2.2 v hv)).1 hes
  exact ⟨d, l, by simpa using e1, h5, e2⟩

/-- **C89**. `x.error_components()` has no exception, and has the keys of the derivatives. The component of a variable depends on two
standard deviations that this variable had during the call: the first one tells whether the component is 0, and the second one (not
earlier) is the one of the product. -/
theorem C89_components (cs : List (Cmd F)) (x : Arg F) (D : VarId → Option F) (h : sees cs (.derivatives x) = .dict D)
    (es : List (Event F)) (o : Out F) (hes : compsDuring cs x es = some o) :
    ∃ E, o = .dict E ∧ (∀ v, D v = none → E v = none) ∧
      ∀ v d, D v = some d → ∃ p q s t, p <+: q ∧ q <+: es ∧
        seesKeyStd (during cs x p) x v = .val (.flt s) ∧ seesKeyStd (during cs x q) x v = .val (.flt t) ∧
        E v = some (if PyFloat.eqb s 0 then 0 else PyFloat.abs (d * t)) := by
  simp only [compsDuring] at hes
  cases hr : (after cs).compsDuring x es with
  | none => rw [hr] at hes; cases hes
  | some r =>
    rw [hr] at hes
    obtain ⟨d, l, rfl, h5, e2⟩ := comps_seen h hr
    obtain ⟨u, d', h5', -, hp⟩ := during_state h
    simp only [Option.map_some, Option.some.injEq] at hes
    have hR : ∀ a b : VarId × F, Seen2 (after (cs ++ [.derivatives x])) es a b → b.1 = a.1 := by
      rintro a b ⟨_, _, _, _, _, _, _, _, rfl⟩; rfl
    refine ⟨_, hes.symm, fun v hv => (lookup_forall₂ hR e2 v).1 (by rw [h5]; exact hv), fun v a hv => ?_⟩
    obtain ⟨e, h6, p, q, h7, h8, c, c', h9, h10, h11⟩ := (lookup_forall₂ hR e2 v).2 a (by rw [h5]; exact hv)
    have hl : d'.lookup v = some a := by rw [h5']; exact hv
    rw [(hp p).2.2.1] at h9
    rw [(hp q).2.2.1] at h10
    simp only [Prod.mk.injEq, true_and] at h11
    exact ⟨p, q, c.std, c'.std, h7, h8, seesKeyStd_of_state (hp p).1 (hp p).2.1 hl h9,
      seesKeyStd_of_state (hp q).1 (hp q).2.1 hl h10, by rw [h6, h11]⟩

/-- **C89**. If the derivative with respect to a variable is not infinite, then the component of this variable is the one that
corresponds to a standard deviation that the variable had at some moment of the call. -/
theorem C89_held [TimesZero F] (cs : List (Cmd F)) (x : Arg F) (D : VarId → Option F) (h : sees cs (.derivatives x) = .dict D)
    (es : List (Event F)) (o : Out F) (hes : compsDuring cs x es = some o) :
    ∃ E, o = .dict E ∧ (∀ v, D v = none → E v = none) ∧
      ∀ v d, D v = some d → PyFloat.isInf d = false → ∃ p s, p <+: es ∧
        seesKeyStd (during cs x p) x v = .val (.flt s) ∧ E v = some (component d s) := by
  obtain ⟨E, h1, h2, h3⟩ := C89_components cs x D h es o hes
  refine ⟨E, h1, h2, fun v d hv hd => ?_⟩
  obtain ⟨p, q, s, t, h4, h5, h6, h7, h8⟩ := h3 v d hv
  cases hs : PyFloat.eqb s 0 with
  | true =>
    refine ⟨p, s, h4.trans h5, h6, ?_⟩
    rw [h8]; simp only [component, hs, if_true]
  | false =>
    cases ht : PyFloat.eqb t 0 with
    | false =>
      refine ⟨q, t, h5, h7, ?_⟩
      rw [h8]; simp only [component, hs, ht]
    | true =>
      rcases TimesZero.mul d s t hd ht with e | e
      · refine ⟨q, t, h5, h7, ?_⟩
        rw [h8]; simp only [component, hs, ht, e, if_true, Bool.false_eq_true, if_false]
      · refine ⟨p, s, h4.trans h5, h6, ?_⟩
        rw [h8]; simp only [component, hs, e]

/-- **C89**. If no variable of `x` changes during the call, then `x.error_components()` and `x.s` are what they were before it, whatever
the other threads do. -/
theorem C89_unchanged (cs : List (Cmd F)) (x : Arg F) (D : VarId → Option F) (h : sees cs (.derivatives x) = .dict D)
    (es : List (Event F))
    (hc : ∀ p, p <+: es → ∀ v, D v ≠ none → seesKeyStd (during cs x p) x v = seesKeyStd (during cs x []) x v) :
    (∀ o, compsDuring cs x es = some o → o = sees (during cs x []) (.errorComponents x)) ∧
      ∀ o, stdDuring cs x es = some o → o = sees (during cs x []) (.s x) := by
  have key : ∀ r, (after cs).compsDuring x es = some r → ∃ l, r = .ok l ∧
      sees (during cs x []) (.errorComponents x) = .dict (fun v => l.lookup v) ∧ sees (during cs x []) (.s x) = finishStd (.ok l) := by
    intro r hr
    obtain ⟨u, d, h5, hr', hp⟩ := during_state h
    rw [hr'] at hr
    obtain ⟨l, e1, e2⟩ := (run_seen es (after (cs ++ [.derivatives x])) d [] r (fun v hv p _ => by
      rw [(hp p).2.2.1]; exact (hp p).2.2.2 v hv)).1 hr
    have e3 : errorLoop (after (during cs x [])).w.vars d = .ok l := by
      refine errorLoop_of_forall₂ (forall₂_mem e2 ?_)
      rintro ⟨v, a⟩ e hi ⟨p, q, h7, h8, c, c', h9, h10, rfl⟩
      rw [(hp p).2.2.1] at h9
      rw [(hp q).2.2.1] at h10
      have hk : v ∈ d.map Prod.fst := List.mem_map.mpr ⟨_, hi, rfl⟩
      obtain ⟨b, hb⟩ := lookup_of_key hk
      have hlt := (hp []).2.2.2 v hk
      have h0 : (after (during cs x [])).w.vars[v]? = some (after (during cs x [])).w.vars[v] := List.getElem?_eq_getElem hlt
      have hD : D v ≠ none := by rw [← h5, hb]; simp
      have e4 := hc p (h7.trans h8) v hD
      have e5 := hc q h8 v hD
      rw [seesKeyStd_of_state (hp []).1 (hp []).2.1 hb h0] at e4 e5
      rw [seesKeyStd_of_state (hp p).1 (hp p).2.1 hb h9] at e4
      rw [seesKeyStd_of_state (hp q).1 (hp q).2.1 hb h10] at e5
      simp only [Out.val.injEq, PyVal.flt.injEq] at e4 e5
      exact ⟨_, h0, by simp only [component, ← e4, ← e5]; rw [e4, ← e5]⟩
    refine ⟨l, by simpa using e1, sees_errorComponents_of_state (hp []).1 (hp []).2.1 e3, ?_⟩
    rw [sees_s_of_state (hp []).1 (hp []).2.1, e3]
  constructor
  · intro o ho
    simp only [compsDuring] at ho
    cases hr : (after cs).compsDuring x es with
    | none => rw [hr] at ho; cases ho
    | some r =>
      obtain ⟨l, rfl, e1, -⟩ := key r hr
      rw [hr] at ho
      simp only [Option.map_some, Option.some.injEq] at ho
      rw [e1, ← ho]
  · intro o ho
    simp only [stdDuring] at ho
    cases hr : (after cs).compsDuring x es with
    | none => rw [hr] at ho; cases ho
    | some r =>
      obtain ⟨l, rfl, -, e1⟩ := key r hr
      rw [hr] at ho
      simp only [Option.map_some, Option.some.injEq] at ho
      rw [e1, ← ho]

end any

section rounded
variable {F : Type} [PyMath F] [Halts F] [Rounded F] [TimesZero F]

/-- **C89**, partial: if at most one variable `w` of `x` changes during the call, and if the derivatives are not infinite, then
`x.error_components()` and `x.s` are, together, what they are at some moment of the call. (Full claim: whatever the number of variables that
change, and whatever the derivatives. It is false: `C89_fails`, `C89_fails_infinite`.) -/
theorem C89_snapshot_partial (cs : List (Cmd F)) (x : Arg F) (D : VarId → Option F) (h : sees cs (.derivatives x) = .dict D)
    (hD : ∀ v d, D v = some d → PyFloat.isInf d = false)
    (es : List (Event F)) (w : VarId)
    (hc : ∀ p, p <+: es → ∀ v, v ≠ w → D v ≠ none → seesKeyStd (during cs x p) x v = seesKeyStd (during cs x []) x v) :
    ∃ p, p <+: es ∧ (∀ o, compsDuring cs x es = some o → o = sees (during cs x p) (.errorComponents x)) ∧
      ∀ o, stdDuring cs x es = some o → o = sees (during cs x p) (.s x) := by
  cases hr : (after cs).compsDuring x es with
  | none =>
    refine ⟨[], List.nil_prefix, fun o ho => ?_, fun o ho => ?_⟩
    · simp only [compsDuring, hr] at ho; cases ho
    · simp only [stdDuring, hr] at ho; cases ho
  | some r =>
    have hr0 := hr
    obtain ⟨u, d, h5, hr', hp⟩ := during_state h
    rw [hr'] at hr
    obtain ⟨l, e1, e2⟩ := (run_seen es (after (cs ++ [.derivatives x])) d [] r (fun v hv p _ => by
      rw [(hp p).2.2.1]; exact (hp p).2.2.2 v hv)).1 hr
    have hn : KeysNodup d := by
      obtain ⟨g, s, hg, -⟩ := RRel.afterAll (during cs x [])
      exact (hg.inv.den.cell _ _ (hp []).2.1).1
    obtain ⟨p, hpe, e3⟩ := forall₂_pick (w := w) (P := fun p => p <+: es)
      (Q := fun p i e => ∃ c, (after (during cs x p)).w.vars[i.1]? = some c ∧ e = (i.1, component i.2 c.std))
      ⟨[], List.nil_prefix⟩ e2 hn (by
        rintro ⟨v, a⟩ e hi hvw ⟨p, q, h7, h8, c, c', h9, h10, rfl⟩ p0 hp0
        rw [(hp p).2.2.1] at h9
        rw [(hp q).2.2.1] at h10
        have hk : v ∈ d.map Prod.fst := List.mem_map.mpr ⟨_, hi, rfl⟩
        obtain ⟨b, hb⟩ := lookup_of_key hk
        have hlt := (hp p0).2.2.2 v hk
        have h0 : (after (during cs x p0)).w.vars[v]? = some (after (during cs x p0)).w.vars[v] := List.getElem?_eq_getElem hlt
        have hDv : D v ≠ none := by rw [← h5, hb]; simp
        have e4 := (hc p (h7.trans h8) v hvw hDv).trans (hc p0 hp0 v hvw hDv).symm
        have e5 := (hc q h8 v hvw hDv).trans (hc p0 hp0 v hvw hDv).symm
        rw [seesKeyStd_of_state (hp p0).1 (hp p0).2.1 hb h0] at e4 e5
        rw [seesKeyStd_of_state (hp p).1 (hp p).2.1 hb h9] at e4
        rw [seesKeyStd_of_state (hp q).1 (hp q).2.1 hb h10] at e5
        simp only [Out.val.injEq, PyVal.flt.injEq] at e4 e5
        exact ⟨_, h0, by simp only [component, ← e4, ← e5]; rw [e4, ← e5]⟩) (by
        rintro ⟨v, a⟩ e hi rfl ⟨p, q, h7, h8, c, c', h9, h10, rfl⟩
        rw [(hp p).2.2.1] at h9
        rw [(hp q).2.2.1] at h10
        have hda : PyFloat.isInf a = false := hD v a (by rw [← h5]; exact lookup_of_mem_keys hn hi)
        cases hs : PyFloat.eqb c.std 0 with
        | true => exact ⟨p, h7.trans h8, c, h9, by simp only [component, hs, if_true]⟩
        | false =>
          cases ht : PyFloat.eqb c'.std 0 with
          | false => exact ⟨q, h8, c', h10, by simp only [component, hs, ht]⟩
          | true =>
            rcases TimesZero.mul a c.std c'.std hda ht with e | e
            · exact ⟨q, h8, c', h10, by simp only [component, ht, e, if_true, Bool.false_eq_true, if_false]⟩
            · exact ⟨p, h7.trans h8, c, h9, by simp only [component, hs, e]⟩)
    have e4 := errorLoop_of_forall₂ e3
    have hrl : r = .ok l := by simpa using e1
    refine ⟨p, hpe, fun o ho => ?_, fun o ho => ?_⟩
    · rw [sees_errorComponents_of_state (hp p).1 (hp p).2.1 e4]
      simp only [compsDuring, hr0, hrl, Option.map_some, Option.some.injEq] at ho
      exact ho.symm
    · rw [sees_s_of_state (hp p).1 (hp p).2.1, e4]
      simp only [stdDuring, hr0, hrl, Option.map_some, Option.some.injEq] at ho
      exact ho.symm

end rounded

/-! ### Doubles, exact numbers -/

theorem B64.round_zero (d : ℕ) : B64.round 0 d = .fin 0 := by
  have h : B64.rndInt 0 d = 0 := by simp [B64.rndInt]
  simp only [B64.round, h]
  exact if_pos (by positivity)

theorem B64.mul_zero (x : ℤ) : B64.mul (.fin x) (.fin 0) = .fin 0 := by
  simp only [B64.mul, Int.mul_zero]
  exact B64.round_zero _

instance : TimesZero B64 where
  mul d s t hd ht := by
    cases t with
    | nan => cases ht
    | inf b => cases ht
    | fin y =>
      have hy : y = 0 := by
        have : (y == 0) = true := ht
        simpa using this
      subst hy
      cases d with
      | inf b => cases hd
      | nan =>
        refine Or.inr ?_
        cases s <;> rfl
      | fin x =>
        refine Or.inl ?_
        have : (B64.fin x * B64.fin 0 : B64) = .fin 0 := B64.mul_zero x
        rw [this]; rfl

noncomputable instance : TimesZero NR where
  mul d s t _ ht := by
    cases t with
    | nan => cases ht
    | fin y =>
      have hy : y = 0 := by
        have : decide (y = 0) = true := ht
        simpa using this
      subst hy
      cases d with
      | nan => exact Or.inr (by cases s <;> rfl)
      | fin x =>
        refine Or.inl ?_
        change NR.fin |x * 0| = NR.fin 0
        simp

/-- The number 1, as a double. -/
def one64 : ℤ := 2 ^ 1074

/-- `a = ufloat(0, 3)`, `b = ufloat(0, 0)`, `x = b + a`. -/
def exTwo : List (Cmd B64) :=
  [.ufloat (.fin 0) (.fin (3 * one64)) none, .ufloat (.fin 0) (.fin 0) none, .binop .add (.ref 1) (.ref 0)]

/-- A thread calculates `x.s`; after the component of `a`, another thread does `a.std_dev = 0; b.std_dev = 4`. -/
def exChanges : List (Event B64) :=
  [none, none, some (.setStd (.ref 0) (.fin 0)), some (.setStd (.ref 1) (.fin (4 * one64))), none, none, none]

/-- The float that is read. -/
def floatOf : Option (Out B64) → Option B64
  | some (.val (.flt x)) => some x
  | _ => none

theorem floatOf_eq {o : Option (Out B64)} {x : B64} (h : floatOf o = some x) : o = some (.val (.flt x)) := by
  unfold floatOf at h
  split at h
  · cases h; rfl
  · cases h

theorem floatOf_prefixes {es : List (Event B64)} {f : List (Event B64) → Out B64} {l : List B64}
    (h : (es.inits.map fun p => floatOf (some (f p))) = l.map some) (p : List (Event B64)) (hp : p <+: es) :
    ∃ x ∈ l, f p = .val (.flt x) := by
  have h1 : floatOf (some (f p)) ∈ l.map some := by
    rw [← h]
    exact List.mem_map_of_mem (f := fun p => floatOf (some (f p))) ((List.mem_inits _ _).mpr hp)
  obtain ⟨x, hx, e⟩ := List.mem_map.mp h1
  exact ⟨x, hx, by simpa using floatOf_eq e.symm⟩

/-- **C89**, negation of the full statement: when two variables change, the standard deviation which is read (5) can be one that the number
never had: it was 3, 0 and then 4. -/
theorem C89_fails :
    stdDuring exTwo (.ref 2) exChanges = some (.val (.flt (.fin (5 * one64)))) ∧
      ∀ p, p <+: exChanges → ∃ s ∈ [3, 0, 4], sees (during exTwo (.ref 2) p) (.s (.ref 2)) = .val (.flt (.fin (s * one64))) := by
  refine ⟨floatOf_eq (by decide +kernel), fun p hp => ?_⟩
  obtain ⟨x, hx, e⟩ := floatOf_prefixes (f := fun p => sees (during exTwo (.ref 2) p) (.s (.ref 2)))
    (l := [3, 3, 3, 0, 4, 4, 4, 4].map fun n => .fin (n * one64)) (by decide +kernel) p hp
  simp only [List.map_cons, List.map_nil, List.mem_cons, List.not_mem_nil, or_false] at hx
  rcases hx with rfl | rfl | rfl | rfl | rfl | rfl | rfl | rfl <;> exact ⟨_, by simp, e⟩

/-- `a = ufloat(0, 1)`, `x = a * 2**1000 * 2**1000`: the derivative overflows. -/
def exInfinite : List (Cmd B64) :=
  [.ufloat (.fin 0) (.fin one64) none, .binop .mul (.ref 0) (.const (.flt (.fin (2 ^ 1000 * one64)))),
   .binop .mul (.ref 1) (.const (.flt (.fin (2 ^ 1000 * one64))))]

/-- A thread calculates `x.s`; another thread does `a.std_dev = 0` between the two readings of this standard deviation. -/
def exZeroed : List (Event B64) := [none, some (.setStd (.ref 0) (.fin 0)), none, none]

/-- **C89**, negation of the full statement: when the derivative is infinite, the change of a single variable is enough: the standard
deviation which is read is NaN, while it was infinite and then 0. -/
theorem C89_fails_infinite :
    stdDuring exInfinite (.ref 2) exZeroed = some (.val (.flt .nan)) ∧
      ∀ p, p <+: exZeroed → ∃ s ∈ [B64.inf false, .fin 0], sees (during exInfinite (.ref 2) p) (.s (.ref 2)) = .val (.flt s) := by
  refine ⟨floatOf_eq (by decide +kernel), fun p hp => ?_⟩
  obtain ⟨x, hx, e⟩ := floatOf_prefixes (f := fun p => sees (during exInfinite (.ref 2) p) (.s (.ref 2)))
    (l := [.inf false, .inf false, .fin 0, .fin 0, .fin 0]) (by decide +kernel) p hp
  simp only [List.mem_cons, List.not_mem_nil, or_false] at hx
  rcases hx with rfl | rfl | rfl | rfl | rfl <;> exact ⟨_, by simp, e⟩

/-! ### Concrete cases -/

/-- In the first example, the derivatives are those of a sum... -/
example : (match sees exTwo (.derivatives (.ref 2)) with
    | .dict D => [D 0, D 1, D 2]
    | _ => []) = [some (.fin one64), some (.fin one64), none] := by decide +kernel

/-- ... and a change of one of the two variables meets the hypotheses of `C89_snapshot_partial`: `a.std_dev = 0` between the two readings. -/
def exOne : List (Event B64) := [none, some (.setStd (.ref 0) (.fin 0)), none, none, none]

example : stdDuring exTwo (.ref 2) exOne = some (.val (.flt (.fin 0))) := floatOf_eq (by decide +kernel)

example (p : List (Event B64)) (hp : p <+: exOne) : seesKeyStd (during exTwo (.ref 2) p) (.ref 2) 1 = .val (.flt (.fin 0)) := by
  obtain ⟨x, hx, e⟩ := floatOf_prefixes (f := fun p => seesKeyStd (during exTwo (.ref 2) p) (.ref 2) 1)
    (l := [.fin 0, .fin 0, .fin 0, .fin 0, .fin 0, .fin 0]) (by decide +kernel) p hp
  simp only [List.mem_cons, List.not_mem_nil, or_false] at hx
  rcases hx with rfl | rfl | rfl | rfl | rfl | rfl <;> exact e

end Unc
