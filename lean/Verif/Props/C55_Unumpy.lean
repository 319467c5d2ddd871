import Verif.Model.Unumpy
import Verif.Lemmas.Arrays
import Verif.Py.ZN

/-
C55: functions of `unumpy`.
-/

namespace Unc

set_option autoImplicit false

/-- The name in NumPy of the functions of the `math` module: inverse functions have a name that starts with
"arc". -/
def numpyName : String → String
  | "acos" => "arccos"
  | "acosh" => "arccosh"
  | "asin" => "arcsin"
  | "asinh" => "arcsinh"
  | "atan" => "arctan"
  | "atan2" => "arctan2"
  | "atanh" => "arctanh"
  | f => f

/-- The functions that umath provides for arrays. -/
def umathNames : List String :=
  fixedDerivativeNames ++ numDerivFuncs ++ locallyCstFuncs ++ ["modf", "ldexp"]

theorem unumpyName_table : ∀ f ∈ umathNames, (f ≠ "asinh" → unumpyName f = numpyName f) ∧
    ∀ g ∈ umathNames, unumpyName f = unumpyName g → f = g := by
  decide +kernel

theorem mem_umathNames {dirMath : List String} {f : String} (h : f ∈ manyScalarsToScalarFuncs dirMath) :
    f ∈ umathNames := by
  simp only [manyScalarsToScalarFuncs, List.mem_append, List.mem_filter, decide_eq_true_eq] at h
  simp only [umathNames, List.mem_append]
  tauto

theorem lookup_eq_of_unique {l : List (String × String)} {a b : String} (h : (a, b) ∈ l)
    (hu : ∀ c, (a, c) ∈ l → c = b) : l.lookup a = some b := by
  induction l with
  | nil => cases h
  | cons p l ih =>
    obtain ⟨x, y⟩ := p
    by_cases hx : a = x
    · subst hx
      rw [List.lookup_cons_self, hu y (by simp)]
    · rw [List.lookup_cons, beq_eq_false_iff_ne.mpr hx]
      refine ih ?_ (fun c hc => hu c (by simp [hc]))
      simpa [hx] using h

theorem mem_of_lookup_str {l : List (String × String)} {a b : String} (h : l.lookup a = some b) : (a, b) ∈ l := by
  induction l with
  | nil => cases h
  | cons p l ih =>
    obtain ⟨x, y⟩ := p
    rw [List.lookup_cons] at h
    by_cases hx : a = x
    · subst hx
      simp only [BEq.rfl, Option.some.injEq] at h
      simp [h]
    · rw [beq_eq_false_iff_ne.mpr hx] at h
      simp [ih h]

/-- The functions of the `math` module that `umath` provides. -/
def scalarFunctions : List String :=
  ["acos", "acosh", "asin", "asinh", "atan", "atan2", "atanh", "ceil", "copysign", "cos", "cosh", "degrees", "erf", "erfc",
   "exp", "expm1", "fabs", "floor", "fmod", "gamma", "hypot", "isinf", "isnan", "lgamma", "log", "log10", "log1p", "pow",
   "radians", "sin", "sinh", "sqrt", "tan", "tanh", "trunc"]

theorem scalarFunctions_table : (∀ f ∈ scalarFunctions, f ∈ fixedDerivativeNames ∨ f ∈ numDerivFuncs ∨ f ∈ locallyCstFuncs) ∧
    ∀ f ∈ fixedDerivativeNames ++ numDerivFuncs ++ locallyCstFuncs, f ∈ scalarFunctions := by
  decide +kernel

theorem names_of_mem {dirMath : List String} {f : String} (hf : f ∈ manyScalarsToScalarFuncs dirMath)
    (hne : f ≠ "asinh") : unumpyGetattr dirMath (numpyName f) = some f := by
  have h := unumpyName_table f (mem_umathNames hf)
  rw [← h.1 hne]
  unfold unumpyGetattr unumpyAttributes
  refine lookup_eq_of_unique ?_ ?_
  · simp only [List.mem_reverse, List.mem_map]
    exact ⟨f, hf, rfl⟩
  · intro c hc
    simp only [List.mem_reverse, List.mem_map, Prod.mk.injEq] at hc
    obtain ⟨g, hg, h1, rfl⟩ := hc
    exact (h.2 g (mem_umathNames hg) h1.symm).symm

/-- **C55**, without asinh: each function of `umath` (for scalars) is available in `unumpy` under its NumPy name. `dirMath`: the
names found in the `math` module of the version of Python. -/
theorem C55_names_partial (dirMath : List String) (f : String)
    (hf : (f ∈ scalarFunctions ∧ f ∈ dirMath) ∨ f = "modf" ∨ f = "ldexp") (hne : f ≠ "asinh") :
    unumpyGetattr dirMath (numpyName f) = some f := by
  refine names_of_mem ?_ hne
  simp only [manyScalarsToScalarFuncs, List.mem_append, List.mem_filter, decide_eq_true_eq]
  rcases hf with ⟨h1, h2⟩ | rfl | rfl
  · exact Or.inl ⟨h2, scalarFunctions_table.1 f h1⟩
  · exact Or.inr (by simp)
  · exact Or.inr (by simp)

/-- **C55**: `unumpy` has no other function under these names. -/
theorem C55_names_only (dirMath : List String) (name f : String) (h : unumpyGetattr dirMath name = some f) :
    ((f ∈ scalarFunctions ∧ f ∈ dirMath) ∨ f = "modf" ∨ f = "ldexp") ∧ (f ≠ "asinh" → name = numpyName f) := by
  have hm := mem_of_lookup_str h
  simp only [unumpyAttributes, List.mem_reverse, List.mem_map, Prod.mk.injEq] at hm
  obtain ⟨g, hg, h1, rfl⟩ := hm
  refine ⟨?_, fun hne => ?_⟩
  · simp only [manyScalarsToScalarFuncs, List.mem_append, List.mem_filter, decide_eq_true_eq] at hg
    rcases hg with ⟨h2, h3⟩ | h2
    · refine Or.inl ⟨scalarFunctions_table.2 g ?_, h2⟩
      simp only [List.mem_append]
      tauto
    · exact Or.inr (by simpa using h2)
  · rw [← h1]
    exact (unumpyName_table g (mem_umathNames hg)).1 hne

/-- Hypotheses of `C55_names_partial`. -/
example : "acos" ∈ scalarFunctions ∧ unumpyGetattr ["acos", "nan"] "arccos" = some "acos" := by decide +kernel

/-- **C55** is false for asinh: `unumpy.arcsinh` does not exist (the function is `unumpy.asinh`). -/
theorem C55_fails_asinh (dirMath : List String) (h : "asinh" ∈ dirMath) :
    unumpyGetattr dirMath (numpyName "asinh") = none ∧ unumpyGetattr dirMath "asinh" = some "asinh" := by
  have htab : ∀ f ∈ umathNames, unumpyName f ≠ "arcsinh" := by decide +kernel
  have htab2 : ∀ f ∈ umathNames, unumpyName f = "asinh" → f = "asinh" := by decide +kernel
  have hmem : "asinh" ∈ manyScalarsToScalarFuncs dirMath := by
    simp only [manyScalarsToScalarFuncs, List.mem_append, List.mem_filter]
    exact Or.inl ⟨h, by decide +kernel⟩
  refine ⟨?_, ?_⟩
  · show unumpyGetattr dirMath "arcsinh" = none
    unfold unumpyGetattr
    by_contra hne
    obtain ⟨g, hg⟩ := Option.ne_none_iff_exists'.mp hne
    have hm := mem_of_lookup_str hg
    simp only [unumpyAttributes, List.mem_reverse, List.mem_map, Prod.mk.injEq] at hm
    obtain ⟨f, hf, h1, -⟩ := hm
    exact htab f (mem_umathNames hf) h1
  · unfold unumpyGetattr unumpyAttributes
    refine lookup_eq_of_unique ?_ ?_
    · simp only [List.mem_reverse, List.mem_map]
      exact ⟨"asinh", hmem, by decide +kernel⟩
    · intro c hc
      simp only [List.mem_reverse, List.mem_map, Prod.mk.injEq] at hc
      obtain ⟨g, hg, h1, rfl⟩ := hc
      exact htab2 g (mem_umathNames hg) h1

/-! ### Vectorized functions -/

variable {F : Type} [PyMath F] [ExactLin F] {p q : ℕ}

/-- A command whose result does not depend on values created in the meantime. -/
def StableCmd (s : SState F) (c : Cmd F) (r : SVal F) : Prop :=
  c.isCopy = false ∧ ∀ l, ({ s with env := s.env ++ l } : SState F).step c =
    ({ s with env := s.env ++ l ++ [some r] }, .done)

theorem Reaches.stables {cs : List (Cmd F)} {s : SState F} {l0 : List (Option (SVal F))}
    (h : Reaches cs { s with env := s.env ++ l0 }) {ι : Type}
    (l : List ι) (c : ι → Cmd F) (r : ι → SVal F) (hl : ∀ i ∈ l, StableCmd s (c i) (r i)) :
    Reaches (cs ++ l.map c) { s with env := s.env ++ (l0 ++ l.map fun i => some (r i)) } := by
  induction l generalizing cs l0 with
  | nil => simpa using h
  | cons i l ih =>
    obtain ⟨hc, hst⟩ := hl i (by simp)
    obtain ⟨-, h1⟩ := h.snoc (c i) hc
    rw [hst l0, List.append_assoc] at h1
    have h2 := ih h1 (fun j hj => hl j (by simp [hj]))
    simpa using h2

theorem sevalArgs_append {env l : List (Option (SVal F))} {args : List (Arg F)} {a : List (SVal F)}
    (h : evalArgs (Arg.seval env) args = some a) : evalArgs (Arg.seval (env ++ l)) args = some a := by
  induction args generalizing a with
  | nil => exact h
  | cons x args ih =>
    simp only [evalArgs] at h ⊢
    cases h1 : x.seval env with
    | none => simp [h1] at h
    | some v =>
      rw [seval_append h1]
      cases h2 : evalArgs (Arg.seval env) args with
      | none => simp [h1, h2] at h
      | some vs =>
        rw [h1, h2] at h
        rw [ih h2]
        exact h

theorem SState.bind_done {s : SState F} {r : PyRes (SVal F)} (h : (s.bind r).2 = .done) :
    ∃ v, ∀ l, ({ s with env := s.env ++ l } : SState F).bind r = ({ s with env := s.env ++ l ++ [some v] }, .done) := by
  cases r with
  | error e => simp [SState.bind] at h
  | ok v =>
    cases v with
    | unc u => exact ⟨.unc u, fun l => rfl⟩
    | plain x => cases x <;> first | exact ⟨_, fun l => rfl⟩ | simp [SState.bind] at h

/-- Calls of functions. -/
theorem stable_call {s : SState F} {f : Nat} {args : List (Arg F)} (h : (s.step (.call f args [])).2 = .done) :
    ∃ r, StableCmd s (.call f args []) r := by
  simp only [SState.step] at h
  cases hf : s.fns[f]? with
  | none => simp [hf, SState.invalid] at h
  | some df =>
    cases ha : evalArgs (Arg.seval s.env) args with
    | none => simp [hf, ha, SState.invalid] at h
    | some a =>
      simp only [hf, ha, evalArgs] at h
      obtain ⟨v, hv⟩ := SState.bind_done h
      refine ⟨v, rfl, fun l => ?_⟩
      simp only [SState.step, hf, sevalArgs_append ha, evalArgs]
      exact hv l

theorem stable_lcst {s : SState F} {f : PyFn F} {args : List (Arg F)} (h : (s.step (.lcst f args [])).2 = .done) :
    ∃ r, StableCmd s (.lcst f args []) r := by
  simp only [SState.step] at h
  cases ha : evalArgs (Arg.seval s.env) args with
  | none => simp [ha, SState.invalid] at h
  | some a =>
    simp only [ha, evalArgs] at h
    obtain ⟨v, hv⟩ := SState.bind_done h
    refine ⟨v, rfl, fun l => ?_⟩
    simp only [SState.step, sevalArgs_append ha, evalArgs]
    exact hv l

theorem vectorized_main {cs : List (Cmd F)} {s : SState F} (hs : Reaches cs s) (call : List (Arg F) → Cmd F)
    (A : Fin p → Fin q → List (Arg F)) (hst : ∀ i j, ∃ r, StableCmd s (call (A i j)) r) :
    ∃ (cmds : List (Cmd F)) (x : Fin p → Fin q → Arg F),
      vectorized call (after cs).env.length (arr A) = (cmds, arr x) ∧
      ∀ i j a, SeenAs (cs ++ [call (A i j)]) (next cs) a → SeenAs (cs ++ cmds) (x i j) a := by
  choose r hr using hst
  have h1 : Reaches (cs ++ (arr A).flatten.map call)
      { s with env := s.env ++ (arr fun (i : Fin p) (j : Fin q) => some (r i j)).flatten } := by
    have hs' : Reaches cs { s with env := s.env ++ [] } := by simpa using hs
    have := hs'.stables (arr fun (i : Fin p) (j : Fin q) => (i, j)).flatten (fun ij => call (A ij.1 ij.2))
      (fun ij => r ij.1 ij.2) (fun ij _ => hr ij.1 ij.2)
    rw [flatten_map_arr (fun (i : Fin p) (j : Fin q) => (i, j)) (fun ij => call (A ij.1 ij.2)),
      flatten_map_arr (fun (i : Fin p) (j : Fin q) => (i, j)) (fun ij => some (r ij.1 ij.2))] at this
    rw [flatten_map_arr A call]
    simpa using this
  refine ⟨_, _, by rw [vectorized, number_arr], fun i j a ha => ?_⟩
  obtain ⟨-, h2⟩ := hs.snoc (call (A i j)) (hr i j).1
  have e := (hr i j).2 []
  simp only [List.append_nil] at e
  rw [e] at h2
  obtain ⟨sv, k1, k2⟩ := h2.seen ha
  have hlen := hs.env_length
  have k3 : (next cs).seval (s.env ++ [some (r i j)]) = some (r i j) := by
    simp [next, Arg.seval, ← hlen]
  rw [k3] at k1
  cases k1
  rw [← k2]
  refine h1.seenAs ?_
  simp only [Arg.seval, ← hlen]
  rw [List.getElem?_append_right (by omega)]
  rw [Nat.add_sub_cancel_left, flatten_arr]
  rfl

/-- **C55**: the functions of `unumpy` work element by element: after any history, for arrays of any
(two-dimensional) shape of arguments for which `umath.f()` does not raise an exception, each element of the
result is seen like the result of `umath.f()` for this element (same nominal value, same derivatives). -/
theorem C55_elementwise (cs : List (Cmd F)) (f : Nat) (A : Fin p → Fin q → List (Arg F))
    (hok : ∀ i j, sees cs (.call f (A i j) []) = .done) :
    ∃ (cmds : List (Cmd F)) (x : Fin p → Fin q → Arg F),
      vectorized (fun args => .call f args []) (after cs).env.length (arr A) = (cmds, arr x) ∧
      ∀ i j a, SeenAs (cs ++ [.call f (A i j) []]) (next cs) a → SeenAs (cs ++ cmds) (x i j) a := by
  obtain ⟨s, hs⟩ := Reaches.exists cs
  refine vectorized_main hs _ A (fun i j => stable_call ?_)
  rw [← (hs.snoc (.call f (A i j) []) rfl).1]
  exact hok i j

/-- **C55**: idem for locally constant functions (`unumpy.ceil()`, `unumpy.isnan()`...). Missing: empty arrays, for which these functions
raise `ValueError`, and results that do not have the NumPy type of the first one (`C103_fails_empty`, `C103_fails_type`). -/
theorem C55_elementwise_locally_constant_partial (cs : List (Cmd F)) (f : PyFn F) (A : Fin p → Fin q → List (Arg F))
    (hok : ∀ i j, sees cs (.lcst f (A i j) []) = .done) :
    ∃ (cmds : List (Cmd F)) (x : Fin p → Fin q → Arg F),
      vectorized (fun args => .lcst f args []) (after cs).env.length (arr A) = (cmds, arr x) ∧
      ∀ i j a, SeenAs (cs ++ [.lcst f (A i j) []]) (next cs) a → SeenAs (cs ++ cmds) (x i j) a := by
  obtain ⟨s, hs⟩ := Reaches.exists cs
  refine vectorized_main hs _ A (fun i j => stable_lcst ?_)
  rw [← (hs.snoc (.lcst f (A i j) []) rfl).1]
  exact hok i j

/-- The hypotheses of `C55_elementwise`, for an array with a row of two pairs of arguments. -/
example :
    let cs : List (Cmd ZN) := [.ufloat (.fin 3) (.fin 1) none, .wrap fsumWrapDef]
    sees cs (.call (opDefs (F := ZN)).length [.ref 0, .const (.flt (.fin 4))] []) = .done ∧
    sees cs (.call (opDefs (F := ZN)).length [.const (.flt (.fin 4)), .ref 0] []) = .done := by
  exact ⟨rfl, rfl⟩

end Unc
