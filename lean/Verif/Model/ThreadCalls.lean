import Verif.Model.Machine

/-
Model of what happens inside calls of wrapped functions (core.py 646-752) when several threads make them at the same time, or
when an asynchronous exception (like `KeyboardInterrupt`) stops them.

What is shared is the state of the wrapped functions: the iterator of derivatives and the list of the elements already taken from
it (`IndexableIter`, core.py 380-429), and the dictionary of the derivatives with respect to keyword arguments. Another thread can
run, or an exception can be raised, between any two operations on these objects. Operations on local variables and calls of the
function itself and of its derivatives (which are assumed to be deterministic and without side effect) are merged with the shared
operation that precedes them. Simplification: `next()` of the iterator is a single operation (for a generator given by the user
it can also raise `ValueError: generator already executing`).
-/

namespace Unc

set_option autoImplicit false

variable {F : Type}

/-- What a call gives: a plain value, or the nominal value and the terms of a new number with uncertainty. -/
abbrev CallOut (F : Type) := PyRes (PyVal F ⊕ (F × List (Item F)))

/-- Where a thread is, in the code of `f_with_affine_output`. `v` is the value of the function at the nominal values, and `acc`
is `linear_part` (reversed). -/
inductive CallPc (F : Type) where
  /-- lines 646-714 -/
  | start
  /-- line 724: `for pos in pos_w_uncert`; `rest` are the arguments from position `k` on. If the first one has an uncertainty, this
  is also line 416: `return returned_elements[index]` -/
  | pos (v : PyVal F) (k : Nat) (rest : List (Val F)) (acc : List (Item F))
  /-- line 420: `range(len(returned_elements), index+1)`, where `index` is `k` -/
  | range (v : PyVal F) (k : Nat) (u : UF F) (rest : List (Val F)) (acc : List (Item F))
  /-- line 422: `value = next(self.iterable)`, for `pos` being `p`, or end of the loop -/
  | next (v : PyVal F) (k : Nat) (u : UF F) (rest : List (Val F)) (acc : List (Item F)) (p : Nat)
  /-- line 427: `returned_elements.append(value)` -/
  | append (v : PyVal F) (k : Nat) (u : UF F) (rest : List (Val F)) (acc : List (Item F)) (p : Nat) (value : Option (DerivFn F))
  /-- line 429: `return returned_elements[index]` -/
  | get (v : PyVal F) (k : Nat) (u : UF F) (rest : List (Val F)) (acc : List (Item F))
  /-- line 731: `for name in names_w_uncert` -/
  | kw (v : PyVal F) (rest : List (String × Val F)) (acc : List (Item F))
  /-- the result, or an exception -/
  | done (r : CallOut F)

section
variable [PyFloat F]

/-- Lines 725-729, once the element number `k` of the derivatives was obtained. -/
def CallPc.coef (args : List (Val F)) (kwargs : List (String × Val F)) (v : PyVal F) (k : Nat) (u : UF F)
    (rest : List (Val F)) (acc : List (Item F)) (o : Option (DerivFn F)) : CallPc F :=
  match o with
  | none => .done (.error .typeError)   -- `None` is not callable
  | some d =>
    match d (args.map Val.nominal) (kwargs.map fun p => (p.1, p.2.nominal)) with
    | .error e => .done (.error e)
    | .ok c => .pos v (k + 1) rest (.pair c u.lin :: acc)

/-- One operation of a thread that calls the wrapped function `wf` (core.py 410-429, 646-752). -/
def CallPc.step (args : List (Val F)) (kwargs : List (String × Val F)) (wf : Wrapped F) : CallPc F → Wrapped F × CallPc F
  | .start =>
    match wf.df.f (args.map Val.nominal) (kwargs.map fun p => (p.1, p.2.nominal)) with
    | .error e => (wf, .done (.error e))
    | .ok v =>
      if args.all (fun a => !a.isUnc) && kwargs.all (fun p => !p.2.isUnc) then (wf, .done (.ok (.inl v)))
      else if !v.floatLike then (wf, .done (.ok (.inl .notImpl)))
      else (wf, .pos v 0 args [])
  | .pos v _ [] acc => (wf, .kw v kwargs acc)
  | .pos v k (.plain _ :: rest) acc => (wf, .pos v (k + 1) rest acc)
  | .pos v k (.unc u :: rest) acc =>
    match wf.iter.returnedElements[k]? with
    | some o => (wf, CallPc.coef args kwargs v k u rest acc o)
    | none => (wf, .range v k u rest acc)
  | .range v k u rest acc => (wf, .next v k u rest acc wf.iter.returnedElements.length)
  | .next v k u rest acc p =>
    if p ≤ k then
      let value := match wf.iter.stream wf.iter.taken with
        | none => wf.iter.noneConverter p
        | some d => some d
      ({ wf with iter := { wf.iter with taken := wf.iter.taken + 1 } }, .append v k u rest acc p value)
    else (wf, .get v k u rest acc)
  | .append v k u rest acc p value =>
    ({ wf with iter := { wf.iter with returnedElements := wf.iter.returnedElements ++ [value] } }, .next v k u rest acc (p + 1))
  | .get v k u rest acc =>
    match wf.iter.returnedElements[k]? with
    | some o => (wf, CallPc.coef args kwargs v k u rest acc o)
    | none => (wf, .done (.error .indexError))
  | .kw v [] acc =>
    match v.toFloat with
    | .error e => (wf, .done (.error e))
    | .ok x => (wf, .done (.ok (.inr (x, acc))))
  | .kw v ((_, .plain _) :: rest) acc => (wf, .kw v rest acc)
  | .kw v ((name, .unc u) :: rest) acc =>
    match wf.kwDeriv name with
    | (wf, d) =>
      match d (args.map Val.nominal) (kwargs.map fun p => (p.1, p.2.nominal)) with
      | .error e => (wf, .done (.error e))
      | .ok c => (wf, .kw v rest (.pair c u.lin :: acc))
  | .done r => (wf, .done r)

/-- A thread that calls the wrapped function number `f`. -/
structure CallThread (F : Type) where
  f : Nat
  args : List (Val F)
  kwargs : List (String × Val F)
  pc : CallPc F

/-- The wrapped functions, and threads. -/
structure CallRace (F : Type) where
  wraps : List (Wrapped F)
  threads : List (CallThread F)

/-- Thread number `t` does one operation. -/
def CallRace.step (r : CallRace F) (t : Nat) : CallRace F :=
  match r.threads[t]? with
  | none => r
  | some th =>
    match r.wraps[th.f]? with
    | none => r
    | some wf =>
      match th.pc.step th.args th.kwargs wf with
      | (wf, pc) => ⟨r.wraps.set th.f wf, r.threads.set t { th with pc := pc }⟩

/-- The threads do their operations in the order given by the schedule. -/
def CallRace.run (r : CallRace F) : List Nat → CallRace F
  | [] => r
  | t :: sched => (r.step t).run sched

end

/-! ### Callers -/

/-- A thread calls the wrapped function number `f`. -/
structure Caller (F : Type) where
  f : Nat
  args : List (Arg F)
  kwargs : List (String × Arg F)

/-- The command that does the same. -/
def Caller.cmd (c : Caller F) : Cmd F := .call c.f c.args c.kwargs

variable [PyMath F]

/-- The state of a thread that starts in the state `m`. -/
def Caller.start (m : Machine F) (c : Caller F) : Option (CallThread F) :=
  if c.f < m.w.wraps.length then
    match evalArgs (Arg.eval m.env) c.args, evalArgs (Arg.evalKw m.env) c.kwargs with
    | some a, some k => some ⟨c.f, a, k, .start⟩
    | _, _ => none
  else none

/-- The threads start in the state `m`. -/
def startCalls (m : Machine F) (callers : List (Caller F)) : Option (CallRace F) :=
  (evalArgs (Caller.start m) callers).map fun ths => ⟨m.w.wraps, ths⟩

/-- What becomes of the result of a call: the end of `World.call`. -/
def Machine.bindCall (m : Machine F) : CallPc F → Machine F × Option (Out F)
  | .done (.error e) =>
    match Machine.bind m.env m.w (.error e) with
    | (m, o) => (m, some o)
  | .done (.ok (.inl v)) =>
    match Machine.bind m.env m.w (.ok (.plain v)) with
    | (m, o) => (m, some o)
  | .done (.ok (.inr (x, ts))) =>
    match m.w.alloc (.terms ts) with
    | (w, n) =>
      match Machine.bind m.env w (.ok (.unc { nom := x, lin := n, var := none })) with
      | (m, o) => (m, some o)
  | _ => (⟨m.w, m.env ++ [none]⟩, none)   -- not finished

/-- The results of the threads are bound, in the order of the threads; what each thread sees (`none`: it is not finished). -/
def Machine.bindCalls (m : Machine F) : List (CallThread F) → Machine F × List (Option (Out F))
  | [] => (m, [])
  | th :: ths =>
    match m.bindCall th.pc with
    | (m, o) =>
      match m.bindCalls ths with
      | (m, os) => (m, o :: os)

/-- The state of the program when the threads have done some operations (those that are not finished are stopped), and what each
thread sees. -/
def Machine.withCalls (m : Machine F) (r : CallRace F) : Machine F × List (Option (Out F)) :=
  Machine.bindCalls ⟨{ m.w with wraps := r.wraps }, m.env⟩ r.threads

end Unc
