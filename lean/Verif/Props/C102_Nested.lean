import Verif.Lemmas.Nested
import Verif.Props.C96_Effects

/-
C102: functions given to `wrap` that call wrapped functions: recursive functions, and functions that call each other. The documented
calls, without any cache, are in `Spec/Nested.lean`.
-/

namespace Unc

set_option autoImplicit false

section
variable {S F : Type} [PyFloat F]

/-- **C102**: for any functions given to `wrap`, that can call any of the wrapped functions (in any order, any number of times, in each
other, and also from derivatives), after any history of calls of any of them, a call has the effects and the result of the documented call,
where the calls made by these functions are also documented calls. -/
theorem C102_result (dfs : Nat → PWrapDef S F) (history : List (PCall S F)) (limit j : Nat) (args : List (Val F))
    (kwargs : List (String × Val F)) (hk : (kwargs.map Prod.fst).Nodup) (s : S) :
    (callP limit j args kwargs (callsP history fun i => mkWrappedP (dfs i)) s).2 = documentedNested dfs limit j args kwargs s := by
  have h0 : Closures.OK dfs (fun i => mkWrappedP (dfs i)) := fun i => ⟨mkWrappedP_ok _, mkWrappedP_df _⟩
  obtain ⟨w, -, h⟩ := callP_ok dfs limit j args kwargs hk _ s (callsP_ok dfs history h0)
  rw [h]

/-- **C102**, histories: the calls made before, and those in progress, do not change what a call does. -/
theorem C102_history (dfs : Nat → PWrapDef S F) (history history' : List (PCall S F)) (limit j : Nat) (args : List (Val F))
    (kwargs : List (String × Val F)) (hk : (kwargs.map Prod.fst).Nodup) (s : S) :
    (callP limit j args kwargs (callsP history fun i => mkWrappedP (dfs i)) s).2 =
      (callP limit j args kwargs (callsP history' fun i => mkWrappedP (dfs i)) s).2 := by
  rw [C102_result dfs history limit j args kwargs hk s, C102_result dfs history' limit j args kwargs hk s]

/-- A function with side effects that calls no wrapped function, as a program. -/
def effectOnly {α : Type} (g : List (PyVal F) → KwArgs F → S → S × PyRes α) : List (PyVal F) → KwArgs F → Prog S F α :=
  fun a k => .get fun s => .put (g a k s).1 (.ret (g a k s).2)

/-- The arguments of `wrap` of C96, as programs. -/
def EWrapDef.asProg (df : EWrapDef S F) : PWrapDef S F where
  f := effectOnly df.f
  derivativesArgs i := (df.derivativesArgs i).map effectOnly
  derivativesKwargs := df.derivativesKwargs.map fun p => (p.1, p.2.map effectOnly)
  argspec := df.argspec
  kwargsNodup := by
    have : (df.derivativesKwargs.map fun p => (p.1, p.2.map (effectOnly (S := S) (F := F) (α := F)))).map Prod.fst =
        df.derivativesKwargs.map Prod.fst := by simp [Function.comp_def]
    rw [this]
    exact df.kwargsNodup
  argspecNodup := df.argspecNodup

/-- **C102**: for functions that call no wrapped function, this is the model of C96. -/
theorem C102_no_nested_call (dfs : Nat → EWrapDef S F) (history : List (PCall S F))
    (history' : List ((List (Val F) × List (String × Val F)) × S)) (hh : ∀ c ∈ history', (c.1.2.map Prod.fst).Nodup)
    (limit j : Nat) (args : List (Val F)) (kwargs : List (String × Val F)) (hk : (kwargs.map Prod.fst).Nodup) (s : S) :
    (callP (limit + 1) j args kwargs (callsP history fun i => mkWrappedP (dfs i).asProg) s).2 =
      (callE (callsE history' (mkWrappedE (dfs j))) args kwargs s).2 := by
  have hm : ∀ call, ((dfs j).asProg).meaning call = dfs j := by
    intro call
    have h1 : ∀ {α : Type} (o : Option (List (PyVal F) → KwArgs F → S → S × PyRes α)),
        (o.map effectOnly).map (fun d a k s => (d a k).meaning call s) = o := by
      intro α o; cases o <;> rfl
    unfold PWrapDef.meaning EWrapDef.asProg
    rcases hd : dfs j with ⟨f, da, dk, sp, n1, n2⟩
    simp only [h1, List.map_map, Function.comp_def]
    congr 1
    simp
  rw [C102_result _ history (limit + 1) j args kwargs hk s]
  obtain ⟨a1, a2⟩ := callsE_ok history' (mkWrappedE_ok (dfs j)) hh
  obtain ⟨wf, -, -, h⟩ := callE_ok a1 args kwargs hk s
  rw [mkWrappedE_df] at a2
  rw [h, a2]
  rw [documentedNested_succ, specNested, hm]

end

/-! ### Example: two functions that call each other, and count their calls -/

/-- `def f(x, n): global calls; calls += 1; return x if n == 0 else x + other(x, n-1)`, where `other` is the wrapped function number `j`. -/
def exNestedFn (j : Nat) : PFn Nat ZN := fun a _ =>
  .get fun calls => .put (calls + 1) <|
    match a with
    | [.flt x, .flt (.fin n)] =>
      if n = 0 then .ret (.ok (.flt x))
      else .call j [.plain (.flt x), .plain (.flt (.fin (n - 1)))] [] (by simp) fun r =>
        match r with
        | .ok (.inl (.flt y)) => .ret (.ok (.flt (x + y)))
        | .ok _ => .ret (.error .typeError)
        | .error e => .ret (.error e)
    | _ => .ret (.error .typeError)

/-- `f0` calls `f1`, and `f1` (and all the other ones) calls `f0`. The derivative of `f0` with respect to its first argument is a function that
calls the wrapped `f1` with a number with uncertainty, in the middle of the call of `f0`. -/
def exNestedDefs : Nat → PWrapDef Nat ZN
  | 0 => { f := exNestedFn 1
           derivativesArgs := fun i => if i = 0 then some fun a _ =>
             .call 1 [.unc exB, .plain (.flt (.fin 1))] [] (by simp) fun r =>
               match r with
               | .ok (.inr (_, [.pair c _])) => .ret (.ok (c + c))
               | _ => .ret (.error .valueError)
             else none
           derivativesKwargs := []
           argspec := none }
  | _ => { f := exNestedFn 0, derivativesArgs := fun _ => none, derivativesKwargs := [], argspec := none }

/-- `f1(x, 2)`: the value is `3*x`, and the derivative is calculated with two more calls, of 3 calls each. -/
example : (callP 5 1 [.unc exB, .plain (.flt (.fin 2))] [] (callsP [] fun i => mkWrappedP (exNestedDefs i)) 0).2 =
    (9, .ok (.inr (.fin 21, [.pair (.fin 3) 1]))) := by
  decide +kernel

/-- `f0(x, 2)`: the derivative comes from a call of `f1`. -/
example : (callP 5 0 [.unc exB, .plain (.flt (.fin 2))] [] (callsP [⟨5, 1, [.unc exB, .plain (.flt (.fin 2))], [], by simp, 0⟩]
    fun i => mkWrappedP (exNestedDefs i)) 0).2 =
    (9, .ok (.inr (.fin 21, [.pair (.fin 4) 1]))) := by
  decide +kernel

/-- Too many calls inside each other. -/
example : (callP 2 1 [.unc exB, .plain (.flt (.fin 2))] [] (callsP [] fun i => mkWrappedP (exNestedDefs i)) 0).2 =
    (2, .error recursionError) := by
  decide +kernel

/-- The hypotheses of `C102_result`, with a keyword argument and a history. -/
example := C102_result exNestedDefs [⟨5, 1, [.unc exB, .plain (.flt (.fin 2))], [], by simp, 0⟩] 7 0 [.unc exA] [("n", .unc exB)] (by simp) 0

/-- The hypotheses of `C102_no_nested_call`. -/
example := C102_no_nested_call (fun _ => exCounter) [] [(([.unc exA, .unc exB], []), 0)] (by simp) 3 0 [.unc exA, .unc exB]
  [("c", .plain (.other 1))] (by simp) 2

end Unc
