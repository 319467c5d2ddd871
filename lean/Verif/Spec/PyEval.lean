import Verif.Model.Fixers

/-
Meaning of Python expressions, for the code updates (C60): what the evaluation of an expression does to the
state of the program, and its result.
-/

namespace Unc

set_option autoImplicit false

/-- Evaluation: from a state of the program, a result (or an exception) and a new state. -/
abbrev Run (W V : Type) := W → PyRes V × W

/-- What the names, the attributes, the functions and the other parts of the syntax mean. -/
structure Interp (W V : Type) where
  name : String → Run W V
  str : Str → V
  tuple : List V → V
  attr : V → String → Run W V
  call : V → List (ArgKind × V) → Run W V
  setattr : V → String → V → Run W V
  /-- `name = v` -/
  setname : String → V → Run W V
  trail : Nat → Run W V → List (Run W V) → Run W V
  other : Nat → List (Run W V) → Run W V

/-- Evaluation of an expression, then of what depends on its value. -/
def Run.bind {W V V' : Type} (r : Run W V) (f : V → Run W V') : Run W V' := fun w =>
  match r w with
  | (.error e, w') => (.error e, w')
  | (.ok v, w') => f v w'

/-- Evaluation of expressions, in order. -/
def Run.all {W V : Type} : List (Run W V) → Run W (List V)
  | [] => fun w => (.ok [], w)
  | r :: l => r.bind fun v => (Run.all l).bind fun vs => fun w => (.ok (v :: vs), w)

mutual
/-- Meaning of an expression. -/
def Ex.eval {W V : Type} (I : Interp W V) : Ex → Run W V
  | .name s => I.name s
  | .str s => fun w => (.ok (I.str s), w)
  | .tuple l => (Run.all (Ex.evals I l)).bind fun vs => fun w => (.ok (I.tuple vs), w)
  | .attr e n => (e.eval I).bind fun v => I.attr v n
  | .call f kinds args => (f.eval I).bind fun v => (Run.all (Ex.evals I args)).bind fun vs => I.call v (kinds.zip vs)
  | .trail e c l => I.trail c (e.eval I) (Ex.evals I l)
  | .assign e n x => (x.eval I).bind fun xv => (e.eval I).bind fun v => I.setattr v n xv
  | .assign2 e n m x => (x.eval I).bind fun xv => (e.eval I).bind fun v => (I.setattr v n xv).bind fun r =>
      (I.setname m xv).bind fun _ w => (.ok r, w)
  | .other c l => I.other c (Ex.evals I l)

/-- Meanings of expressions. -/
def Ex.evals {W V : Type} (I : Interp W V) : List Ex → List (Run W V)
  | [] => []
  | e :: l => e.eval I :: Ex.evals I l
end

/-- The values given to the parameters `nominal_value`, `std_dev`, `tag` of `ufloat()`, for calls with
positional arguments and with the keyword argument `tag`. -/
def ufloatParams {V : Type} : List (ArgKind × V) → Option (V × Option V × Option V)
  | [(.pos, n)] => some (n, none, none)
  | [(.pos, n), (.pos, s)] => some (n, some s, none)
  | [(.pos, n), (.pos, s), (.pos, t)] => some (n, some s, some t)
  | [(.pos, n), (.kw "tag", t)] => some (n, none, some t)
  | [(.pos, n), (.pos, s), (.kw "tag", t)] => some (n, some s, some t)
  | _ => none

/-- The values given to the parameters of `ufloat_fromstr()`. -/
def fromstrParams {V : Type} : List (ArgKind × V) → Option (V × Option V)
  | [(.pos, n)] => some (n, none)
  | [(.pos, n), (.pos, t)] => some (n, some t)
  | [(.pos, n), (.kw "tag", t)] => some (n, some t)
  | _ => none

/-- A new variable, or an exception. -/
def Run.made {F W V : Type} (made : Made F → Run W V) : PyRes (Made F) → Run W V
  | .error e => fun w => (.error e, w)
  | .ok m => made m

/-- The meaning of names and functions is the one of a program that uses the package: `ufloat` and
`ufloat_fromstr` are the functions of the package, as well as the attributes with these names;
`see v` is what `ufloat()` sees of the value `v`; the creation of a variable is done by `made`. -/
structure UsesUfloat {F : Type} [PyText F] {W V : Type} (I : Interp W V) (see : V → Obj F)
    (made : Made F → Run W V) (ufl ufs : V) : Prop where
  tuple : ∀ l, see (I.tuple l) = .tuple (l.map see)
  str : ∀ s, see (I.str s) = .str s
  name_ufloat : ∀ w, I.name "ufloat" w = (.ok ufl, w)
  name_fromstr : ∀ w, I.name "ufloat_fromstr" w = (.ok ufs, w)
  attr : ∀ v w, (I.attr v "ufloat" w = (.ok ufl, w) ∧ I.attr v "ufloat_fromstr" w = (.ok ufs, w)) ∨
    (I.attr v "ufloat_fromstr" w = I.attr v "ufloat" w ∧ ∃ e w', I.attr v "ufloat" w = (.error e, w'))
  call_ufloat : ∀ args n s t, ufloatParams args = some (n, s, t) →
    I.call ufl args = Run.made made (ufloatCall (see n) ((s.map see).getD .none) ((t.map see).getD .none))
  call_fromstr : ∀ args n t str, fromstrParams args = some (n, t) → see n = .str str →
    I.call ufs args = Run.made made (fromstr str ((t.map see).getD .none))

/-- What a program that uses the package relies on, for the values `v` with `isU v` (numbers with uncertainties,
or matrices of such numbers): the value of the attribute `n` can be called, and gives itself
(core.py 935-948, unumpy/core.py 576-596). The deprecation warning is not in the model. -/
def CallableAttr {W V : Type} (I : Interp W V) (isU : V → Prop) (n : String) : Prop :=
  ∀ v, isU v → (I.attr v n).bind (fun s => I.call s []) = I.attr v n

/-- `v.set_std_dev(a)` is `v.std_dev = a` (core.py 2792-2795) for the values `v` with `isVar v` (variables);
access to the method has no effect. -/
def SetsStdDev {W V : Type} (I : Interp W V) (isVar : V → Prop) : Prop :=
  ∀ v, isVar v → ∃ m, (∀ w, I.attr v "set_std_dev" w = (.ok m, w)) ∧
    ∀ a, I.call m [(.pos, a)] = I.setattr v "std_dev" a

/-- Two expressions can be evaluated in any order. -/
def Run.AnyOrder {W V : Type} (r r' : Run W V) : Prop :=
  ∀ f : V → V → Run W V, (r.bind fun v => r'.bind fun v' => f v v') = r'.bind fun v' => r.bind fun v => f v v'

/-- The name `fn` (and the attribute `fn` of values, if it exists) is the function `uarray()` (or `umatrix()`)
of the package. -/
structure UsesUarray {W V : Type} (I : Interp W V) (fn : String) (isNone : V → Bool) (unpack : V → PyRes (V × V))
    (make : V → V → Run W V) (ua : V) : Prop where
  tuple : ∀ a b, unpack (I.tuple [a, b]) = .ok (a, b)
  name : ∀ w, I.name fn w = (.ok ua, w)
  attr : ∀ v w, I.attr v fn w = (.ok ua, w) ∨ ∃ e w', I.attr v fn w = (.error e, w')
  call_one : ∀ x, I.call ua [(.pos, x)] = uarrayCall isNone unpack make (fun e w => (.error e, w)) x none
  call_two : ∀ x y, I.call ua [(.pos, x), (.pos, y)] =
    uarrayCall isNone unpack make (fun e w => (.error e, w)) x (some y)
  call_star : ∀ x a b, unpack x = .ok (a, b) → I.call ua [(.star, x)] = I.call ua [(.pos, a), (.pos, b)]

end Unc
