import Verif.Model.WrapNested
import Verif.Spec.Effects

/-
Documented calls of functions that call wrapped functions: without caches.
-/

namespace Unc

set_option autoImplicit false

variable {S F : Type}

/-- What a program does, if the calls of wrapped functions do `call`. -/
def Prog.meaning {α : Type} (call : Nat → List (Val F) → List (String × Val F) → S → S × CallResult F) :
    Prog S F α → S → S × PyRes α
  | .ret r, s => (s, r)
  | .get k, s => (k s).meaning call s
  | .put s k, _ => k.meaning call s
  | .call j args kwargs _ k, s => (k (call j args kwargs s).2).meaning call (call j args kwargs s).1

/-- The functions given to `wrap`, as functions with side effects, if the calls of wrapped functions do `call`. -/
def PWrapDef.meaning (call : Nat → List (Val F) → List (String × Val F) → S → S × CallResult F) (df : PWrapDef S F) : EWrapDef S F where
  f := fun a k s => (df.f a k).meaning call s
  derivativesArgs i := (df.derivativesArgs i).map fun d a k s => (d a k).meaning call s
  derivativesKwargs := df.derivativesKwargs.map fun p => (p.1, p.2.map fun d a k s => (d a k).meaning call s)
  argspec := df.argspec
  kwargsNodup := by
    have : (df.derivativesKwargs.map fun p =>
        (p.1, p.2.map fun (d : PDeriv S F) a k s => (d a k).meaning call s)).map Prod.fst =
        df.derivativesKwargs.map Prod.fst := by simp [Function.comp_def]
    rw [this]
    exact df.kwargsNodup
  argspecNodup := df.argspecNodup

/-- The documented call (see `documentedCall`) of the function number `j`, where the calls of wrapped functions by the functions of
the user are also documented calls. -/
def documentedNested [PyFloat F] (dfs : Nat → PWrapDef S F) :
    (limit : Nat) → Nat → List (Val F) → List (String × Val F) → S → S × CallResult F
  | 0, _, _, _, s => (s, .error recursionError)
  | limit + 1, j, args, kwargs, s =>
    match documentedCall ((dfs j).meaning (documentedNested dfs limit)) args kwargs s with
    | (s, .error e) => (s, .error e)
    | (s, .ok (.inl v)) => (s, .ok (.inl v))
    | (s, .ok (.inr (x, l))) => (s, .ok (.inr (x, termsOf l)))

end Unc
