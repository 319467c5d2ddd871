import Verif.Lemmas.Shape4
import Verif.Py.ZN
import Verif.Py.IZ

/-
C01: nominal values are calculated as plain floats.
C04: reading always terminates.
C18: wrapped functions are transparent when there is no uncertainty.

These theorems hold for every float semantics (`PyMath F`): no law of arithmetic is assumed. `Halts F`
only says that the operations on floats themselves terminate.
-/

namespace Unc

set_option autoImplicit false

variable {F : Type} [PyMath F]

/-! ### Observations -/

theorem sees_nominal {cs : List (Cmd F)} {x : Arg F} {v : PyVal F}
    (h : sees cs (.nominal x) = .val v) : ∃ a, x.eval (after cs).env = some a ∧ a.nominal = v := by
  simp only [sees, Machine.step] at h
  cases hx : x.eval (after cs).env with
  | none => rw [hx] at h; simp [Machine.invalid] at h
  | some a =>
    rw [hx] at h
    simp only [Out.val.injEq] at h
    exact ⟨a, rfl, h⟩

theorem sees_nominal_of {cs : List (Cmd F)} {x : Arg F} {a : Val F}
    (h : x.eval (after cs).env = some a) : sees cs (.nominal x) = .val a.nominal := by
  simp only [sees, Machine.step, h]

theorem eval_next {cs : List (Cmd F)} {c : Cmd F} {w : World F} {a : Val F}
    (h : ((after cs).step c).1 = ⟨w, (after cs).env ++ [some a]⟩) :
    (next cs).eval (after (cs ++ [c])).env = some a := by
  rw [after_snoc', h]
  simp [next, Arg.eval]

theorem Nominals.eval {cs : List (Cmd F)} {xs : List (Arg F)} {vs : List (PyVal F)}
    (h : Nominals cs xs vs) :
    ∃ as, evalArgs (Arg.eval (after cs).env) xs = some as ∧ as.map Val.nominal = vs := by
  induction xs generalizing vs with
  | nil =>
    cases vs with
    | nil => exact ⟨[], rfl, rfl⟩
    | cons v vs => exact h.elim
  | cons x xs ih =>
    cases vs with
    | nil => exact h.elim
    | cons v vs =>
      obtain ⟨a, ha, hn⟩ := sees_nominal h.1
      obtain ⟨as, has, hns⟩ := ih h.2
      exact ⟨a :: as, by simp [evalArgs, ha, has], by simp [hn, hns]⟩

theorem NominalsKw.eval {cs : List (Cmd F)} {xs : List (String × Arg F)} {vs : List (String × PyVal F)}
    (h : NominalsKw cs xs vs) :
    ∃ as, evalArgs (Arg.evalKw (after cs).env) xs = some as ∧
      as.map (fun p => (p.1, p.2.nominal)) = vs := by
  induction xs generalizing vs with
  | nil =>
    cases vs with
    | nil => exact ⟨[], rfl, rfl⟩
    | cons v vs => exact h.elim
  | cons x xs ih =>
    cases vs with
    | nil => exact h.elim
    | cons v vs =>
      obtain ⟨k, x⟩ := x
      obtain ⟨k', v⟩ := v
      obtain ⟨h1, h2, h3⟩ := h
      subst h1
      obtain ⟨a, ha, hn⟩ := sees_nominal h2
      obtain ⟨as, has, hns⟩ := ih h3
      exact ⟨(k, a) :: as, by simp [evalArgs, Arg.evalKw, ha, has], by simp [hn, hns]⟩

variable [Halts F]

theorem fns_get {cs : List (Cmd F)} {f : Nat} {df : WrapDef F} (h : (fnsOf cs)[f]? = some df) :
    f < (after cs).w.wraps.length ∧ ((after cs).w.wraps[f]?).map Wrapped.df = some df := by
  rw [← fnsOf_after, List.getElem?_map] at h
  refine ⟨?_, h⟩
  by_contra hlt
  rw [List.getElem?_eq_none (by omega)] at h
  cases h

/-- What a call gives: exceptions of the function are not caught; a result is the result of the
function; otherwise the exception comes from a derivative or from a result that is not a real
number. -/
theorem call_nominal {cs : List (Cmd F)} {f : Nat} {df : WrapDef F} (hf : (fnsOf cs)[f]? = some df)
    {args : List (Arg F)} {kwargs : List (String × Arg F)} {av : List (PyVal F)}
    {kv : List (String × PyVal F)} (ha : Nominals cs args av) (hk : NominalsKw cs kwargs kv) :
    (∀ e, df.f av kv = .error e → sees cs (.call f args kwargs) = .err e) ∧
    (sees cs (.call f args kwargs) = .done → ∃ v, df.f av kv = .ok v ∧
      sees (cs ++ [.call f args kwargs]) (.nominal (next cs)) = .val v) ∧
    (∀ v, sees cs (.call f args kwargs) = .val v → v = .notImpl) := by
  obtain ⟨as, ha1, ha2⟩ := ha.eval
  obtain ⟨ks, hk1, hk2⟩ := hk.eval
  obtain ⟨hlt, hdf⟩ := fns_get hf
  have hm := MShape.after cs
  have hav : ∀ v ∈ as, v.Valid (after cs).w := by
    intro v hv
    obtain ⟨x, -, hx⟩ := evalArgs_all ha1 v hv
    exact hm.eval hx
  have hkv : ∀ v ∈ ks, v.2.Valid (after cs).w := by
    intro v hv
    obtain ⟨x, -, hx⟩ := evalArgs_all hk1 v hv
    simp only [Arg.evalKw, Option.map_eq_some_iff] at hx
    obtain ⟨y, hy, rfl⟩ := hx
    exact hm.eval hy
  obtain ⟨w', r, h1, h2, h3⟩ := World.call_shape hm.shape hdf hav hkv
  rw [ha2, hk2] at h3
  have hstep : (after cs).step (.call f args kwargs) = Machine.bind (after cs).env w' r := by
    simp only [Machine.step, hlt, if_true, ha1, hk1, h1]
  simp only [sees]
  rw [hstep]
  obtain ⟨n1, n2⟩ := h3.nominally
  refine ⟨?_, ?_, ?_⟩
  · intro e he
    rw [n1 e he]
    rfl
  · intro hdone
    cases r with
    | error e => cases hdone
    | ok a =>
      have hne : a ≠ .plain .notImpl := by
        rintro rfl
        cases hdone
      have hb : Machine.bind (after cs).env w' (.ok a) = (⟨w', (after cs).env ++ [some a]⟩, .done) := by
        cases a with
        | unc u => rfl
        | plain x => cases x <;> first | rfl | exact absurd rfl hne
      obtain ⟨-, hn⟩ := n2 a rfl
      rcases hn with hn | hn
      · exact absurd hn hne
      · refine ⟨a.nominal, hn, ?_⟩
        exact sees_nominal_of (eval_next (w := w') (by rw [hstep, hb]))
  · intro v hv
    cases r with
    | error e => cases hv
    | ok a =>
      cases a with
      | unc u => cases hv
      | plain x => cases x <;> first | (cases hv; rfl) | cases hv

/-! ### C01 -/

/-- **C01**, whole calculations. After any history `cs`, of any length, each value that the program
holds has the nominal value that the same program gives if it uses plain floats: `plainly` runs the
program without uncertainties, with the functions of floats only. -/
theorem C01_whole_calculation (cs : List (Cmd F)) (hv : ∀ c ∈ cs, c.isVariable = false) (k : Nat)
    (v : PyVal F) (h : sees cs (.nominal (.ref k)) = .val v) :
    (plainly cs).env[k]? = some (some v) := by
  obtain ⟨a, ha, rfl⟩ := sees_nominal h
  have hr := NomRel.after cs hv
  simp only [Arg.eval] at ha
  cases hg : (after cs).env[k]? with
  | none => rw [hg] at ha; cases ha
  | some o =>
    rw [hg] at ha
    simp only [Option.join_some] at ha
    subst ha
    exact hr.env k a hg

/-- **C01**, wrapped functions (including those of `umath`): if the function of floats raises an
exception on the nominal values, the call raises the same exception; if the call has a result, its
nominal value is the value of the function on the nominal values. -/
theorem C01_call (cs : List (Cmd F)) (f : Nat) (df : WrapDef F) (hf : (fnsOf cs)[f]? = some df)
    (args : List (Arg F)) (kwargs : List (String × Arg F)) (av : List (PyVal F))
    (kv : List (String × PyVal F)) (ha : Nominals cs args av) (hk : NominalsKw cs kwargs kv) :
    (∀ e, df.f av kv = .error e → sees cs (.call f args kwargs) = .err e) ∧
    (sees cs (.call f args kwargs) = .done → ∃ v, df.f av kv = .ok v ∧
      sees (cs ++ [.call f args kwargs]) (.nominal (next cs)) = .val v) :=
  ⟨(call_nominal hf ha hk).1, (call_nominal hf ha hk).2.1⟩

/-- **C01**, binary operators: idem, with the operation on floats. -/
theorem C01_binop (cs : List (Cmd F)) (op : BinOp) (x y : Arg F) (a b : PyVal F)
    (hx : sees cs (.nominal x) = .val a) (hy : sees cs (.nominal y) = .val b)
    (hu : sees cs (.binop op x y) ≠ .invalid) :
    (∀ e, plainBinop op a b = .error e → sees cs (.binop op x y) = .err e) ∧
    (sees cs (.binop op x y) = .done → ∃ v, plainBinop op a b = .ok v ∧
      sees (cs ++ [.binop op x y]) (.nominal (next cs)) = .val v) := by
  obtain ⟨a', ha, rfl⟩ := sees_nominal hx
  obtain ⟨b', hb, rfl⟩ := sees_nominal hy
  have hm := MShape.after cs
  have hunc : (a'.isUnc || b'.isUnc) = true := by
    by_contra hn
    apply hu
    have hf : (a'.isUnc || b'.isUnc) = false := by simpa using hn
    simp [sees, Machine.step, ha, hb, hf, Machine.invalid]
  obtain ⟨w', r, h1, -, h3, h4⟩ := World.binop_shape hm.shape hm.ops op (hm.eval ha) (hm.eval hb) hunc
  have hstep : (after cs).step (.binop op x y) = Machine.bind (after cs).env w' r := by
    simp only [Machine.step, ha, hb, hunc, if_true, h1]
  simp only [sees]
  rw [hstep]
  refine ⟨?_, ?_⟩
  · intro e he
    rw [h3.err e he]
    rfl
  · intro hdone
    cases r with
    | error e => cases hdone
    | ok c =>
      obtain ⟨u, rfl, -⟩ := h4 c rfl
      obtain ⟨-, hn⟩ := h3.ok _ rfl
      rcases hn with hn | hn
      · cases hn
      · exact ⟨_, hn, sees_nominal_of (eval_next (w := w') (by rw [hstep]; rfl))⟩

/-- **C01**, unary operators. -/
theorem C01_unop (cs : List (Cmd F)) (op : UnOp) (x : Arg F) (a : PyVal F)
    (hx : sees cs (.nominal x) = .val a) (hu : sees cs (.unop op x) ≠ .invalid) :
    (∀ e, plainUnop op a = .error e → sees cs (.unop op x) = .err e) ∧
    (sees cs (.unop op x) = .done → ∃ v, plainUnop op a = .ok v ∧
      sees (cs ++ [.unop op x]) (.nominal (next cs)) = .val v) := by
  obtain ⟨a', ha, rfl⟩ := sees_nominal hx
  have hm := MShape.after cs
  cases a' with
  | plain c =>
    exfalso
    apply hu
    simp [sees, Machine.step, Arg.evalUnc, ha, Machine.invalid]
  | unc u =>
    have hev : x.evalUnc (after cs).env = some u := by simp [Arg.evalUnc, ha]
    obtain ⟨w', r, h1, -, h3⟩ := World.unop_shape hm.shape hm.ops op (hm.evalUnc hev)
    have hstep : (after cs).step (.unop op x) = Machine.bind (after cs).env w' r := by
      simp only [Machine.step, hev, h1]
    simp only [sees]
    rw [hstep]
    obtain ⟨n1, n2⟩ := h3.nominally
    refine ⟨?_, ?_⟩
    · intro e he
      rw [n1 e he]
      rfl
    · intro hdone
      cases h3 with
      | raises e h => cases hdone
      | plain v h hu => cases hu
      | notImpl v h hu hv => cases hdone
      | notReal v e h hu hfl hv => cases hdone
      | derivFails v e h hu hv hd => cases hdone
      | unc z u' h hu hv hn hvar hl =>
        exact ⟨.flt z, h, by rw [← hn]; exact sees_nominal_of (a := .unc u') (eval_next (w := w') (by rw [hstep]; rfl))⟩

/-- **C01**, stability: whatever the program does later (reads, updates of standard deviations,
copies, other calculations), the nominal value of a quantity does not change. -/
theorem C01_stable (cs cs' : List (Cmd F)) (x : Arg F) (v : PyVal F)
    (h : sees cs (.nominal x) = .val v) : sees (cs ++ cs') (.nominal x) = .val v := by
  obtain ⟨a, ha, rfl⟩ := sees_nominal h
  apply sees_nominal_of
  induction cs' using List.reverseRecOn with
  | nil => simpa using ha
  | append_singleton cs' c ih =>
    rw [← List.append_assoc]
    obtain ⟨l, hl, -⟩ := (after_step_ok (cs ++ cs') c).env
    rw [hl]
    cases x with
    | const c => exact ih
    | ref k =>
      simp only [Arg.eval] at ih ⊢
      cases hg : (after (cs ++ cs')).env[k]? with
      | none => rw [hg] at ih; cases ih
      | some o =>
        rw [List.getElem?_append_left (List.getElem?_eq_some_iff.mp hg).1, hg]
        rw [hg] at ih
        exact ih

/-- **C01**, copies: a copy, deep copy or pickled copy of a number with uncertainty exists, and has the
same nominal value. -/
theorem C01_copies (cs : List (Cmd F)) (x : Arg F) (v : PyVal F)
    (h : sees cs (.nominal x) = .val v) (hx : sees cs (.derivatives x) ≠ .invalid) :
    (sees cs (.copy x) = .done ∧ sees (cs ++ [.copy x]) (.nominal (next cs)) = .val v) ∧
    (sees cs (.deepcopy x) = .done ∧ sees (cs ++ [.deepcopy x]) (.nominal (next cs)) = .val v) ∧
    (sees cs (.pickle [x]) = .done ∧ sees (cs ++ [.pickle [x]]) (.nominal (next cs)) = .val v) := by
  obtain ⟨a, ha, rfl⟩ := sees_nominal h
  have hm := MShape.after cs
  cases a with
  | plain c =>
    exfalso
    apply hx
    simp [sees, Machine.step, Machine.read, Arg.evalUnc, ha, Machine.invalid]
  | unc u =>
    have hev : x.evalUnc (after cs).env = some u := by simp [Arg.evalUnc, ha]
    have hu := hm.evalUnc hev
    refine ⟨?_, ?_, ?_⟩
    · obtain ⟨w', u', h1, -, -, h4⟩ := World.copy_shape hm.shape hu
      have hstep : (after cs).step (.copy x) = (⟨w', (after cs).env ++ [some (.unc u')]⟩, .done) := by
        simp only [Machine.step, hev, h1]
      refine ⟨by simp [sees, hstep], ?_⟩
      have : (Val.unc u).nominal = (Val.unc u').nominal := by simp [Val.nominal, h4]
      rw [this]
      exact sees_nominal_of (eval_next (w := w') (by rw [hstep]))
    · obtain ⟨w', u', h1, -, -, h4⟩ := World.deepcopy_shape hm.shape hu
      have hstep : (after cs).step (.deepcopy x) = (⟨w', (after cs).env ++ [some (.unc u')]⟩, .done) := by
        simp only [Machine.step, hev, h1]
      refine ⟨by simp [sees, hstep], ?_⟩
      have : (Val.unc u).nominal = (Val.unc u').nominal := by simp [Val.nominal, h4]
      rw [this]
      exact sees_nominal_of (eval_next (w := w') (by rw [hstep]))
    · obtain ⟨w', us', h1, -, -, h4⟩ := pickleList_shape [u] hm.shape (MemoOK.empty _) (by
        intro v hv; simp at hv; subst hv; exact hu)
      have h1' : (after cs).w.pickle [u] = (w', .ok us') := h1
      obtain ⟨u', rfl⟩ : ∃ u', us' = [u'] := by
        apply List.length_eq_one_iff.mp
        have := congrArg List.length h4
        simpa using this
      · have hstep : (after cs).step (.pickle [x]) =
            (⟨w', (after cs).env ++ [some (.unc u')]⟩, .done) := by
          simp only [Machine.step, evalArgs, hev, h1']
          rfl
        refine ⟨by simp [sees, hstep], ?_⟩
        have : (Val.unc u).nominal = (Val.unc u').nominal := by
          simp at h4
          simp [Val.nominal, h4]
        rw [this]
        exact sees_nominal_of (eval_next (w := w') (by rw [hstep]))

/-! Examples. With integers (`ZN`) and integers with infinities (`IZ`). -/

/-- x = ufloat(3, 1); y = x*x; division of 7 by y; y*inf; then 1/0. -/
def exC01 : List (Cmd IZ) :=
  [.ufloat (.fin 3) (.fin 1) none, .binop .mul (.ref 0) (.ref 0),
   .binop .add (.const (.flt (.fin 7))) (.ref 1), .binop .mul (.ref 2) (.const (.flt (.inf true))),
   .deepcopy (.ref 3), .derivatives (.ref 4), .ufloat (.fin 0) (.fin 1) none]

example : sees exC01 (.nominal (.ref 4)) = .val (.flt (.inf true)) ∧
    (∀ c ∈ exC01, c.isVariable = false) ∧
    sees exC01 (.binop .truediv (.const (.flt (.fin 1))) (.ref 5)) = .err .zeroDivisionError ∧
    plainBinop .truediv (.flt (.fin 1)) (.flt (.fin 0)) = (.error .zeroDivisionError : PyRes (PyVal IZ)) ∧
    sees exC01 (.binop .sub (.ref 2) (.ref 0)) = .done ∧
    sees (exC01 ++ [.binop .sub (.ref 2) (.ref 0)]) (.nominal (next exC01)) = .val (.flt (.fin 13)) :=
  ⟨rfl, by decide, rfl, rfl, rfl, rfl⟩

/-- A wrapped function called with a keyword argument. -/
def exAdd3 : WrapDef IZ where
  f
    | [.flt a], [("b", .flt b)] => .ok (.flt (a + b))
    | _, _ => .error .typeError
  derivativesArgs := .finite [none]
  derivativesKwargs := []
  argspec := some ["a", "b"]

example :
    (fnsOf (exC01 ++ [.wrap exAdd3]))[18]? = some exAdd3 ∧
    Nominals (exC01 ++ [.wrap exAdd3]) [.ref 0] [.flt (.fin 3)] ∧
    NominalsKw (exC01 ++ [.wrap exAdd3]) [("b", .ref 2)] [("b", .flt (.fin 16))] ∧
    sees (exC01 ++ [.wrap exAdd3]) (.call 18 [.ref 0] [("b", .ref 2)]) = .done ∧
    sees (exC01 ++ [.wrap exAdd3]) (.call 18 [.ref 0] [("c", .ref 2)]) = .err .typeError ∧
    sees (exC01 ++ [.wrap exAdd3] ++ [.call 18 [.ref 0] [("b", .ref 2)]])
      (.nominal (next (exC01 ++ [.wrap exAdd3]))) = .val (.flt (.fin 19)) :=
  ⟨rfl, ⟨rfl, trivial⟩, ⟨rfl, rfl, trivial⟩, rfl, rfl, rfl⟩

/-! ### C04 -/

/-- **C04**. Whatever the history, commands that read (`std_dev`, `derivatives`,
`error_components()`, comparisons, `covariance_matrix()`, `std_score()`, …) terminate: the loops of the
model never run out of fuel. -/
theorem C04_reading_terminates (cs : List (Cmd F)) (c : Cmd F) (hc : c.isRead = true) :
    sees cs c ≠ .err .outOfFuel :=
  ((after_step_ok cs c).read hc).2.2

/-- **C04**. Derivatives and error components can be read on every number with uncertainty: reading
never raises an exception (and thus terminates). -/
theorem C04_derivatives_succeed (cs : List (Cmd F)) (x : Arg F) :
    sees cs (.derivatives x) = .invalid ∨
    ((∃ D, sees cs (.derivatives x) = .dict D) ∧ ∃ C, sees cs (.errorComponents x) = .dict C) := by
  have hm := MShape.after cs
  cases hx : x.evalUnc (after cs).env with
  | none => left; simp [sees, Machine.step, Machine.read, hx, Machine.invalid]
  | some u =>
    right
    obtain ⟨w', d, h1, -, -⟩ := World.derivatives_shape hm.shape (hm.evalUnc hx)
    obtain ⟨w'', d', h2, -⟩ := World.errorComponents_shape hm.shape (hm.evalUnc hx)
    refine ⟨⟨fun v => d.lookup v, ?_⟩, ⟨fun v => d'.lookup v, ?_⟩⟩
    · simp [sees, Machine.step, Machine.read, hx, mapRes, h1, Except.map]
    · simp [sees, Machine.step, Machine.read, hx, mapRes, h2, Except.map]

/-- **C04**. Copies and access to variables terminate too. -/
theorem C04_copying_terminates (cs : List (Cmd F)) (x : Arg F) (xs : List (Arg F)) (v : VarId) :
    sees cs (.copy x) ≠ .err .outOfFuel ∧ sees cs (.deepcopy x) ≠ .err .outOfFuel ∧
    sees cs (.pickle xs) ≠ .err .outOfFuel ∧ sees cs (.variable x v) ≠ .err .outOfFuel := by
  have hm := MShape.after cs
  refine ⟨?_, ?_, ?_, ?_⟩
  · simp only [sees, Machine.step]
    cases hx : x.evalUnc (after cs).env with
    | none => simp [Machine.invalid]
    | some u =>
      obtain ⟨w', u', h1, -⟩ := World.copy_shape hm.shape (hm.evalUnc hx)
      simp [h1]
  · simp only [sees, Machine.step]
    cases hx : x.evalUnc (after cs).env with
    | none => simp [Machine.invalid]
    | some u =>
      obtain ⟨w', u', h1, -⟩ := World.deepcopy_shape hm.shape (hm.evalUnc hx)
      simp [h1]
  · simp only [sees, Machine.step]
    cases hx : evalArgs (Arg.evalUnc (after cs).env) xs with
    | none => simp [Machine.invalid]
    | some us =>
      obtain ⟨w', us', h1, -⟩ := pickleList_shape us hm.shape (MemoOK.empty _) (by
        intro u hu
        obtain ⟨y, -, hy⟩ := evalArgs_all hx u hu
        exact hm.evalUnc hy)
      have h1' : (after cs).w.pickle us = (w', .ok us') := h1
      simp [h1']
  · simp only [sees, Machine.step]
    cases hx : x.evalUnc (after cs).env with
    | none => simp [Machine.invalid]
    | some u =>
      obtain ⟨w', r, h1, -, h3, -⟩ := World.variable_shape hm.shape (hm.evalUnc hx) v
      simp only [h1]
      cases r with
      | error e => intro he; cases he; exact h3 rfl
      | ok u => simp

/-- Objects that share sub-results, with `2**n` paths: reading the derivatives gives a result. -/
example : ∃ D, sees exC01 (.derivatives (.ref 3)) = .dict D ∧ D 0 = some (.inf true) := ⟨_, rfl, rfl⟩

/-! ### C18 -/

/-- **C18**. Called without any number with uncertainty, a wrapped function returns the same value as
the function, of whatever type, or raises the same exception; the result is not a number with
uncertainty (it has no derivatives). -/
theorem C18_transparent (cs : List (Cmd F)) (f : Nat) (df : WrapDef F) (hf : (fnsOf cs)[f]? = some df)
    (args : List (PyVal F)) (kwargs : List (String × PyVal F)) :
    let c : Cmd F := .call f (args.map .const) (kwargs.map fun p => (p.1, .const p.2))
    match df.f args kwargs with
    | .error e => sees cs c = .err e
    | .ok .notImpl => sees cs c = .val .notImpl
    | .ok v => sees cs c = .done ∧ sees (cs ++ [c]) (.nominal (next cs)) = .val v ∧
        sees (cs ++ [c]) (.derivatives (next cs)) = .invalid := by
  intro c
  obtain ⟨hlt, hdf⟩ := fns_get hf
  have hm := MShape.after cs
  have ha : evalArgs (Arg.eval (after cs).env) (args.map Arg.const) = some (args.map Val.plain) := by
    induction args with
    | nil => rfl
    | cons a l ih => simp only [List.map_cons, evalArgs, Arg.eval]; rw [ih]
  have hk : evalArgs (Arg.evalKw (after cs).env) (kwargs.map fun p => (p.1, Arg.const p.2)) =
      some (kwargs.map fun p => (p.1, Val.plain p.2)) := by
    induction kwargs with
    | nil => rfl
    | cons a l ih =>
      simp only [List.map_cons, evalArgs, Arg.evalKw, Arg.eval, Option.map_some]; rw [ih]
  obtain ⟨w', r, h1, h2, h3⟩ := World.call_shape hm.shape hdf (args := args.map Val.plain)
    (kwargs := kwargs.map fun p => (p.1, Val.plain p.2)) (by
      intro v hv
      simp only [List.mem_map] at hv
      obtain ⟨a, -, rfl⟩ := hv
      trivial) (by
      intro v hv
      simp only [List.mem_map] at hv
      obtain ⟨a, -, rfl⟩ := hv
      trivial)
  have e1 : (args.map Val.plain).map Val.nominal = args := by
    rw [List.map_map]; conv_rhs => rw [← List.map_id args]
    rfl
  have e2 : (kwargs.map fun p => (p.1, Val.plain p.2)).map (fun p => (p.1, p.2.nominal)) = kwargs := by
    rw [List.map_map]; conv_rhs => rw [← List.map_id kwargs]
    rfl
  rw [e1, e2] at h3
  have hn : noUnc (args.map Val.plain) (kwargs.map fun p => (p.1, Val.plain p.2)) = true := by
    simp [noUnc, Val.isUnc]
  have hstep : (after cs).step c = Machine.bind (after cs).env w' r := by
    simp only [c, Machine.step, hlt, if_true, ha, hk, h1]
  have key : ∀ v, v ≠ .notImpl → df.f args kwargs = .ok v → sees cs c = .done ∧
      sees (cs ++ [c]) (.nominal (next cs)) = .val v ∧
      sees (cs ++ [c]) (.derivatives (next cs)) = .invalid := by
    intro v hv hfv
    have hr : r = .ok (.plain v) := by
      cases h3 with
      | raises e h => rw [h] at hfv; cases hfv
      | plain v' h hu => rw [h] at hfv; cases hfv; rfl
      | notImpl v' h hu => rw [hn] at hu; cases hu
      | notReal v' e h hu => rw [hn] at hu; cases hu
      | derivFails v' e h hu => rw [hn] at hu; cases hu
      | unc x u h hu => rw [hn] at hu; cases hu
    subst hr
    have hb : Machine.bind (after cs).env w' (.ok (.plain v)) =
        (⟨w', (after cs).env ++ [some (.plain v)]⟩, .done) := by
      cases v <;> first | rfl | exact absurd rfl hv
    have hev := eval_next (cs := cs) (c := c) (w := w') (a := .plain v) (by rw [hstep, hb])
    refine ⟨by simp [sees, hstep, hb], sees_nominal_of hev, ?_⟩
    simp [sees, Machine.step, Machine.read, Arg.evalUnc, hev, Machine.invalid]
  cases hfv : df.f args kwargs with
  | error e =>
    have := h3.nominally.err e hfv
    subst this
    simp only [sees, hstep]
    rfl
  | ok v =>
    cases v with
    | flt x => exact key _ (by simp) hfv
    | cplx => exact key _ (by simp) hfv
    | other n => exact key _ (by simp) hfv
    | notImpl =>
      have hr : r = .ok (.plain .notImpl) := by
        cases h3 with
        | raises e h => rw [h] at hfv; cases hfv
        | plain v' h hu => rw [h] at hfv; cases hfv; rfl
        | notImpl v' h hu => rfl
        | notReal v' e h hu => rw [hn] at hu; cases hu
        | derivFails v' e h hu => rw [hn] at hu; cases hu
        | unc x u h hu => rw [hn] at hu; cases hu
      subst hr
      simp only [sees, hstep]
      rfl

/-- The wrapped function of the example, called with plain numbers. -/
example :
    (fnsOf (exC01 ++ [.wrap exAdd3]))[18]? = some exAdd3 ∧
    exAdd3.f [.flt (.fin 3)] [("b", .flt (.fin 4))] = .ok (.flt (.fin 7)) ∧
    exAdd3.f [.cplx] [] = .error .typeError := ⟨rfl, rfl, rfl⟩

end Unc
