import Verif.Props.C66_Containers
import Verif.Props.C15_Compare

/-
C67: hash values, and dictionaries whose keys are variables.
-/

set_option autoImplicit false
set_option linter.unusedSectionVars false

namespace Unc

section
variable {F : Type} [PyMath F] [ExactLin F]

/-- `hash(x)`, after the history `cs`. -/
def hashOf (cs : List (Cmd F)) (x : Arg F) : PyRes VarId := (after cs).hash x

/-- Variables are hashable (being a variable is having a tag); the other numbers with uncertainty are not. -/
theorem C67_hashable (cs : List (Cmd F)) (x : Arg F) (hx : IsQuantity cs x) :
    (∀ t, sees cs (.tag x) = .tag t → ∃ h, hashOf cs x = .ok h) ∧
    ((∀ t, sees cs (.tag x) ≠ .tag t) → hashOf cs x = .error .typeError) := by
  obtain ⟨s, hs⟩ := Reaches.exists cs
  obtain ⟨D, hD⟩ := hx
  obtain ⟨q, hq, -⟩ := hs.derivatives hD
  obtain ⟨k, rfl, hk⟩ := objId_spec hs hq
  constructor
  · intro t ht
    obtain ⟨v, hv⟩ := sees_tag_var hs hq ht
    rw [hv] at hk
    exact ⟨v, by simp only [hashOf, Machine.hash, hk]⟩
  · intro ht
    cases hv : q.var with
    | none =>
      rw [hv] at hk
      simp only [hashOf, Machine.hash, hk]
    | some v =>
      obtain ⟨-, c, hc, -⟩ := hs.wf.var q (sevalUnc_mem hq) v hv
      refine absurd ?_ (ht c.tag)
      rw [(hs.read (c := .tag _) rfl).1]
      simp only [SState.step, SState.read, hq, specTag, hv, hc, PyRes.out]

theorem hashOf_var {cs : List (Cmd F)} {s : SState F} (hs : Reaches cs s) {x : Arg F} {q : SQ F}
    (hq : x.sevalUnc s.env = some q) {h : VarId} : hashOf cs x = .ok h ↔ q.var = some h := by
  obtain ⟨k, rfl, hk⟩ := objId_spec hs hq
  simp only [hashOf, Machine.hash, hk]
  cases q.var with
  | none => simp
  | some v => simp

/-- The hash value of a variable never changes. In particular, it does not depend on its standard deviation. -/
theorem C67_constant (cs later : List (Cmd F)) (x : Arg F) (hx : IsQuantity cs x) (h : VarId) (hh : hashOf cs x = .ok h) :
    hashOf (cs ++ later) x = .ok h := by
  obtain ⟨s, hs⟩ := Reaches.exists cs
  obtain ⟨D, hD⟩ := hx
  obtain ⟨q, hq, -⟩ := hs.derivatives hD
  obtain ⟨s', hs', hl⟩ := hs.later later
  rw [hashOf_var hs' (hl x q hq), ← hashOf_var hs hq]
  exact hh

/-- The hash value is the identity of the variable: different variables never have the same hash value. -/
theorem C67_identity (cs : List (Cmd F)) (x y : Arg F) (hx : IsQuantity cs x) (hy : IsQuantity cs y) (h h' : VarId)
    (hh : hashOf cs x = .ok h) (hh' : hashOf cs y = .ok h') : h = h' ↔ SameObject cs x y := by
  obtain ⟨s, hs⟩ := Reaches.exists cs
  obtain ⟨D, hD⟩ := hx
  obtain ⟨q, hq, -⟩ := hs.derivatives hD
  obtain ⟨D', hD'⟩ := hy
  obtain ⟨q', hq', -⟩ := hs.derivatives hD'
  rw [← sameObject_iff hs hq hq']
  obtain ⟨k, rfl, hk⟩ := objId_spec hs hq
  obtain ⟨k', rfl, hk'⟩ := objId_spec hs hq'
  rw [hk, hk', (hashOf_var hs hq).1 hh, (hashOf_var hs hq').1 hh']
  simp

end

open NR

/-- **C67** (partial: see `C67_fails`). Variables that are equal have the same hash value, unless both are exact. -/
theorem C67_equal_partial (cs : List (Cmd NR)) (x y : Arg NR) (h h' : VarId) (hh : hashOf cs x = .ok h)
    (hh' : hashOf cs y = .ok h') (n n' a b : ℝ) (hn : sees cs (.nominal x) = .val (.flt (fin n)))
    (hn' : sees cs (.nominal y) = .val (.flt (fin n'))) (ha : sees cs (.stdDev x) = .val (.flt (fin a)))
    (hb : sees cs (.stdDev y) = .val (.flt (fin b))) (hab : a ≠ 0 ∨ b ≠ 0) (hx : IsQuantity cs x) (hy : IsQuantity cs y)
    (heq : sees cs (.compare .eq x y) = .bool true) : h = h' := by
  obtain ⟨s, hs⟩ := Reaches.exists cs
  obtain ⟨D, hD⟩ := hx
  obtain ⟨q, hq, -⟩ := hs.derivatives hD
  obtain ⟨D', hD'⟩ := hy
  obtain ⟨q', hq', -⟩ := hs.derivatives hD'
  have hv := (hashOf_var hs hq).1 hh
  have hv' := (hashOf_var hs hq').1 hh'
  obtain ⟨g1, c, hc, -⟩ := hs.wf.var q (sevalUnc_mem hq) h hv
  obtain ⟨g2, c', hc', -⟩ := hs.wf.var q' (sevalUnc_mem hq') h' hv'
  by_contra hne
  have key : ∀ {x : Arg NR} {q : SQ NR} {v : VarId} {c : SVar NR} {n a : ℝ}, x.sevalUnc s.env = some q → q.var = some v →
      q.grad = Lin.single v → s.vars[v]? = some c → sees cs (.nominal x) = .val (.flt (fin n)) →
      sees cs (.stdDev x) = .val (.flt (fin a)) → ∀ σ : VarId → ℝ, σ v = a →
      Quantity cs x (fin n) (Lin.single v) (fun v => fin (σ v)) := by
    intro x q v c n a hq hv hg hc hn ha σ hσ
    have hQ := hs.quantity_exists hq
    have e : x.seval s.env = some (.unc q) := by
      simp only [Arg.sevalUnc] at hq
      split at hq
      · rename_i q0 h0; cases hq; exact h0
      · cases hq
    rw [(hs.read (c := .stdDev x) rfl).1] at ha
    simp only [SState.step, e, specStdDev, hv, hc, PyRes.out] at ha
    injection ha with ha
    injection ha with ha
    refine ⟨hn, by rw [← hg]; exact hQ.derivatives, ?_⟩
    intro u hu
    obtain rfl : u = v := by
      by_contra h
      simp [Lin.single, h] at hu
    rw [hQ.std u (by rw [hg]; exact hu), hc, hσ, ← ha]
    rfl
  have hne' : h' ≠ h := fun h => hne h.symm
  have k1 := key hq hv g1 hc hn ha (fun u => if u = h then a else b) (by simp)
  have k2 := key hq' hv' g2 hc' hn' hb (fun u => if u = h then a else b) (by simp [hne'])
  rw [C15_different_variables k1 k2 hne (by simpa [hne'] using hab)] at heq
  cases heq

/-- **C67 fails** for exact variables: contrary to what is assumed by `Variable.__hash__`, different variables can be equal,
with different hash values. -/
theorem C67_fails :
    let cs : List (Cmd ZN) := [.ufloat (.fin 3) (.fin 0) none, .ufloat (.fin 3) (.fin 0) none]
    sees cs (.compare .eq (.ref 0) (.ref 1)) = .bool true ∧ hashOf cs (.ref 0) = .ok 0 ∧ hashOf cs (.ref 1) = .ok 1 :=
  ⟨rfl, rfl, rfl⟩

/-- The hypotheses of `C67_equal_partial` are met by `x` and the same `x` found in the derivatives of `x*y`. -/
example : hashOf (exCs ++ [.variable (.ref 2) 0]) (.ref 6) = .ok 0 ∧ hashOf (exCs ++ [.variable (.ref 2) 0]) (.ref 0) = .ok 0 := by
  have h := ex_reaches
  obtain ⟨-, h2⟩ := h.snoc (.variable (.ref 2) 0) rfl
  constructor
  · rw [hashOf_var h2 (q := ⟨fin 3, Lin.single 0, some 0⟩)]
    simp [SState.step, exState, Arg.sevalUnc, Arg.seval, Lin.comb, Lin.add, Lin.smul, Lin.single]
  · rw [hashOf_var h2 (q := ⟨fin 3, Lin.single 0, some 0⟩)]
    simp [SState.step, exState, Arg.sevalUnc, Arg.seval, Lin.comb, Lin.add, Lin.smul, Lin.single]

/-! ### Dictionaries -/

/-- A sequence of assignments `d[k] = x`. -/
def PyDict.assign {K V : Type} (same eq : K → K → Bool) (hash : K → Nat) (d : PyDict K V) : List (K × V) → PyDict K V
  | [] => d
  | (k, x) :: l => PyDict.assign same eq hash (d.set same eq hash k x) l

/-- A function, updated by a sequence of assignments. -/
def assigned {K V : Type} [DecidableEq K] (f : K → Option V) : List (K × V) → K → Option V
  | [] => f
  | (k, x) :: l => assigned (fun k' => if k' = k then some x else f k') l

section
variable {K V : Type} [DecidableEq K] {hash : K → Nat}

theorem get_set (hinj : Function.Injective hash) (eq : K → K → Bool) (d : PyDict K V) (hd : ∀ i ∈ d, i.1 = hash i.2.1) (k : K) (x : V) (k' : K) :
    (d.set (fun a b => decide (a = b)) eq hash k x).get (fun a b => decide (a = b)) eq hash k' =
      (if k' = k then some x else d.get (fun a b => decide (a = b)) eq hash k') ∧
    ∀ i ∈ d.set (fun a b => decide (a = b)) eq hash k x, i.1 = hash i.2.1 := by
  have hk : ∀ (i : Nat × K × V), i.1 = hash i.2.1 → ∀ k, PyDict.isKey (fun a b => decide (a = b)) eq (hash k) k i = decide (i.2.1 = k) := by
    intro i hi k
    unfold PyDict.isKey
    rw [hi]
    by_cases h : i.2.1 = k
    · simp [h]
    · have h' : hash i.2.1 ≠ hash k := fun h' => h (hinj h')
      simp [h, h']
  induction d with
  | nil =>
    refine ⟨?_, by simp [PyDict.set]⟩
    simp only [PyDict.set, PyDict.get, List.find?_cons, hk (hash k, k, x) rfl k', List.find?_nil, Option.map_none]
    by_cases h : k' = k
    · simp [h]
    · simp [h, Ne.symm h]
  | cons i d ih =>
    obtain ⟨h1, h2⟩ := ih (fun i hi => hd i (by simp [hi]))
    have hi := hd i (by simp)
    unfold PyDict.set
    rw [hk i hi k]
    by_cases hik : i.2.1 = k
    · simp only [hik, decide_true, if_true]
      constructor
      · simp only [PyDict.get, List.find?_cons, hk (i.1, k, x) (by rw [hi, hik]) k', hk i hi k']
        by_cases h : k' = k
        · simp [h]
        · simp [h, hik, Ne.symm h]
      · intro j hj
        rcases List.mem_cons.1 hj with rfl | hj
        · rw [← hik]; exact hi
        · exact hd j (by simp [hj])
    · simp only [hik, decide_false, Bool.false_eq_true, if_false]
      constructor
      · simp only [PyDict.get, List.find?_cons, hk i hi k'] at h1 ⊢
        by_cases h : i.2.1 = k'
        · have : k' ≠ k := fun h' => hik (h.trans h')
          simp [h, this]
        · simp only [h, decide_false]
          exact h1
      · intro j hj
        rcases List.mem_cons.1 hj with rfl | hj
        · exact hi
        · exact h2 j hj

/-- **C67**. Whatever the result of `==` between variables (some variables are equal without being the same object, and a
variable with an infinite standard deviation is not equal to itself), a dictionary with variables as keys is a mapping from
each variable to its value, because different variables have different hash values: after any sequence of assignments to an
empty dictionary, the value for a variable is the last one that was assigned to this very variable. -/
theorem C67_dictionary (hinj : Function.Injective hash) (eq : K → K → Bool) (l : List (K × V)) (k : K) :
    (PyDict.assign (fun a b => decide (a = b)) eq hash [] l).get (fun a b => decide (a = b)) eq hash k =
      assigned (fun _ => none) l k := by
  have : ∀ (d : PyDict K V) (f : K → Option V), (∀ i ∈ d, i.1 = hash i.2.1) →
      (∀ k, d.get (fun a b => decide (a = b)) eq hash k = f k) →
      (PyDict.assign (fun a b => decide (a = b)) eq hash d l).get (fun a b => decide (a = b)) eq hash k = assigned f l k := by
    induction l with
    | nil => intro d f _ h; exact h k
    | cons p l ih =>
      obtain ⟨k0, x⟩ := p
      intro d f hd h
      refine ih _ _ (get_set hinj eq d hd k0 x k0).2 ?_
      intro k'
      rw [(get_set hinj eq d hd k0 x k').1, h k']
  exact this [] _ (by simp) (fun _ => rfl)

end

/-- Three variables that are all equal: two assignments to the first one, one to the second one. -/
example : let d := PyDict.assign (fun a b => decide (a = b)) (fun _ _ => true) id [] [(0, "a"), (1, "b"), (0, "c")]
    (d.get (fun a b => decide (a = b)) (fun _ _ => true) id 0, d.get (fun a b => decide (a = b)) (fun _ _ => true) id 2) =
      (some "c", none) := by decide

end Unc
