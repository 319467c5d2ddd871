import Verif.Model.Recursion
import Verif.Props.C01_Nominal
import Verif.Py.ZN

/-
C69: copying the results of long calculations.
-/

set_option autoImplicit false
set_option linter.unusedSectionVars false

namespace Unc

variable {F : Type} [PyMath F] [Halts F]

/-- `copy.deepcopy(x)` after the history `cs`, when recursions are limited. -/
def deepcopyWithin (limit : Nat) (cs : List (Cmd F)) (x : Arg F) : Machine F × Out F :=
  (after cs).copying (World.deepcopyWithin limit) x

/-- `pickle.loads(pickle.dumps(x))` after the history `cs`, when recursions are limited. -/
def pickleWithin (limit : Nat) (cs : List (Cmd F)) (x : Arg F) : Machine F × Out F :=
  (after cs).copying (World.pickleWithin limit) x

theorem copyNode_dict {share : Bool} {w : World F} {i : NodeId} {d : Derivs F} (h : w.nodes[i]? = some (.dict d))
    {L L' : Nat} (hL : 1 ≤ L) (hL' : 1 ≤ L') (m : Memo) : copyNode share L i w m = copyNode share L' i w m := by
  obtain ⟨L, rfl⟩ : ∃ k, L = k + 1 := ⟨L - 1, by omega⟩
  obtain ⟨L', rfl⟩ : ∃ k, L' = k + 1 := ⟨L' - 1, by omega⟩
  unfold copyNode
  rw [h]

/-- After its derivatives have been read, the linear part of a number is a dictionary. -/
theorem read_dict (cs : List (Cmd F)) {x : Arg F} {u : UF F} (hx : x.evalUnc (after cs).env = some u) :
    x.evalUnc (after (cs ++ [.derivatives x])).env = some u ∧
    ∃ d, (after (cs ++ [.derivatives x])).w.nodes[u.lin]? = some (.dict d) := by
  have hm := MShape.after cs
  have hu := hm.evalUnc hx
  rw [after_snoc']
  obtain ⟨d, hr⟩ := readDerivs_terminates (after cs).w.nodes hm.shape.heap u.lin hu.1
  simp only [Machine.step, Machine.read, hx, mapRes, World.derivatives, hr, Except.map]
  exact ⟨trivial, d, by rw [List.getElem?_set_self hu.1]⟩

/-- **C69** (partial: the derivatives must have been read before, see `C69_fails`). After its derivatives have been read
(which any reading of its standard deviation does), a number can be copied and pickled, whatever the limit on recursions; the
result is the same as without a limit. -/
theorem C69_after_reading_partial (cs : List (Cmd F)) (x : Arg F) (limit : Nat) (hl : 1 ≤ limit) :
    deepcopyWithin limit (cs ++ [.derivatives x]) x = (after (cs ++ [.derivatives x])).step (.deepcopy x) ∧
    pickleWithin limit (cs ++ [.derivatives x]) x = (after (cs ++ [.derivatives x])).step (.pickle [x]) := by
  cases hx : x.evalUnc (after cs).env with
  | none =>
    have e : (after (cs ++ [.derivatives x])) = after cs := by
      rw [after_snoc']
      simp [Machine.step, Machine.read, hx, Machine.invalid]
    rw [e]
    simp only [deepcopyWithin, pickleWithin, e, Machine.copying, hx, Machine.step, evalArgs, List.length_singleton]
    exact ⟨trivial, trivial⟩
  | some u =>
    obtain ⟨h1, d, h2⟩ := read_dict cs hx
    simp only [deepcopyWithin, pickleWithin, Machine.copying, Machine.step, h1, evalArgs, World.deepcopyWithin, World.deepcopy,
      World.pickleWithin, World.pickle, pickleList, pickleOne]
    constructor
    · cases u.var with
      | some v => rfl
      | none =>
        simp only []
        rw [copyNode_dict h2 hl (by omega : 1 ≤ u.lin + 1)]
        rfl
    · cases u.var with
      | some v =>
        simp only []
        generalize copyVarMemo true (after (cs ++ [.derivatives x])).w Memo.empty v = r
        obtain ⟨w, m, e | v'⟩ := r
        · rfl
        · simp only []
          cases w.vars[v']? with
          | none => rfl
          | some c => rfl
      | none =>
        simp only []
        rw [copyNode_dict h2 hl (by omega : 1 ≤ u.lin + 1)]
        generalize copyNode true (u.lin + 1) u.lin (after (cs ++ [.derivatives x])).w Memo.empty = r
        obtain ⟨w, m, e | n⟩ := r
        · rfl
        · rfl

/-- What `x + y` does. -/
theorem longSum_add {w : World F} (h : Shape w) (ho : HasOps w) (x y : UF F) :
    ∃ W z, w.binop .add (.unc x) (.unc y) =
      ({ w with wraps := W, nodes := w.nodes ++ [.terms [.pair 1 y.lin, .pair 1 x.lin]] },
        .ok (.unc { nom := z, lin := w.nodes.length, var := none })) := by
  have hf := ho.binop .add
  cases hg : w.wraps[BinOp.add.id]? with
  | none => rw [hg] at hf; cases hf
  | some wf =>
    rw [hg] at hf
    simp only [Option.map_some, Option.some.injEq] at hf
    obtain ⟨wf1, a1, a2, a3⟩ := Wrapped.posDeriv_ok (h.wraps _ wf hg) 0
    obtain ⟨wf2, b1, b2, b3⟩ := Wrapped.posDeriv_ok a2 1
    rw [a3, hf] at b1
    rw [hf] at a1
    have e : callTerms wf [.unc x, .unc y] [] = (wf2, .ok (.inr (x.nom + y.nom, [.pair 1 y.lin, .pair 1 x.lin]))) := by
      simp only [callTerms, hf, List.map_cons, List.map_nil, Val.nominal]
      have e0 : (BinOp.add.wrapDef : WrapDef F).f [.flt x.nom, .flt y.nom] [] = .ok (.flt (x.nom + y.nom)) := rfl
      rw [e0]
      have e1 : ([Val.unc x, Val.unc y].all (fun a => !a.isUnc) && ([] : List (String × Val F)).all fun p => !p.2.isUnc) = false := rfl
      simp only [e1, Bool.false_eq_true, if_false]
      have e2 : (PyVal.flt (x.nom + y.nom)).floatLike = true := rfl
      simp only [e2, Bool.not_true, Bool.false_eq_true, if_false]
      have c0 : (BinOp.add.wrapDef : WrapDef F).specPos 0 [.flt x.nom, .flt y.nom] [] = .ok 1 := rfl
      have c1 : (BinOp.add.wrapDef : WrapDef F).specPos 1 [.flt x.nom, .flt y.nom] [] = .ok 1 := rfl
      simp only [posTerms, a1, c0, b1, c1, kwTerms, PyVal.toFloat]
    refine ⟨w.wraps.set BinOp.add.id wf2, x.nom + y.nom, ?_⟩
    simp only [World.binop, World.call, hg, e, World.alloc]

/-- `x = ufloat(n, s)`, then `x + x + ... + x`, with `k` additions: result number `k`. -/
def longSum (n s : F) (k : Nat) : List (Cmd F) :=
  .ufloat n s none :: (List.range k).map fun i => .binop .add (.ref i) (.ref 0)

/-- The objects that the sum builds. -/
structure IsSum (m : Machine F) (k : Nat) : Prop where
  len : m.w.nodes.length = k + 1
  env : m.env.length = k + 1
  nodes : ∀ j, j < k → m.w.nodes[j + 1]? = some (.terms [.pair 1 0, .pair 1 j])
  vals : ∀ j, j ≤ k → ∃ u, m.env[j]? = some (some (.unc u)) ∧ u.lin = j ∧ (1 ≤ j → u.var = none)

theorem IsSum.ofLongSum (n s : F) (hs : specBadStd s = false) (k : Nat) : IsSum (after (longSum n s k)) k := by
  induction k with
  | zero =>
    have : after (longSum n s 0) = ((after []).step (.ufloat n s none)).1 := rfl
    rw [this]
    have hb : (PyFloat.ltb s 0 && !PyFloat.isInf s) = false := hs
    simp only [Machine.step, World.ufloat, hb, Bool.false_eq_true, if_false, World.alloc]
    refine ⟨rfl, rfl, by intro j hj; omega, ?_⟩
    intro j hj
    obtain rfl : j = 0 := by omega
    exact ⟨_, rfl, rfl, by omega⟩
  | succ k ih =>
    have e : longSum n s (k + 1) = longSum n s k ++ [.binop .add (.ref k) (.ref 0)] := by
      simp [longSum, List.range_succ]
    have hm := MShape.after (longSum n s k)
    rw [e, after_snoc']
    obtain ⟨u, hu1, hu2, -⟩ := ih.vals k (Nat.le_refl k)
    obtain ⟨x, hx1, hx2, -⟩ := ih.vals 0 (Nat.zero_le k)
    obtain ⟨W, z, hadd⟩ := longSum_add hm.shape hm.ops u x
    have eu : (Arg.ref k : Arg F).eval (after (longSum n s k)).env = some (.unc u) := by simp [Arg.eval, hu1]
    have ex : (Arg.ref 0 : Arg F).eval (after (longSum n s k)).env = some (.unc x) := by simp [Arg.eval, hx1]
    simp only [Machine.step, eu, ex, Val.isUnc, Bool.or_self, if_true, hadd, Machine.bind]
    refine ⟨by simp [ih.len], by simp [ih.env], ?_, ?_⟩
    · intro j hj
      by_cases hjk : j < k
      · simp only []
        rw [List.getElem?_append_left (by rw [ih.len]; omega)]
        exact ih.nodes j hjk
      · obtain rfl : j = k := by omega
        simp only []
        rw [List.getElem?_append_right (by rw [ih.len])]
        simp [ih.len, hu2, hx2]
    · intro j hj
      by_cases hjk : j ≤ k
      · simp only []
        rw [List.getElem?_append_left (by rw [ih.env]; omega)]
        exact ih.vals j hjk
      · obtain rfl : j = k + 1 := by omega
        refine ⟨{ nom := z, lin := (after (longSum n s k)).w.nodes.length, var := none }, ?_, ih.len, fun _ => rfl⟩
        simp only []
        rw [List.getElem?_append_right (by rw [ih.env])]
        simp [ih.env]

theorem IsSum.copyNode {m : Machine F} {k : Nat} (h : IsSum m k) (share : Bool) {limit j : Nat} (hl : limit ≤ j) (hj : j ≤ k) :
    copyNode share limit j m.w Memo.empty = (m.w, Memo.empty, .error .outOfFuel) := by
  induction limit generalizing j with
  | zero => rfl
  | succ limit ih =>
    obtain ⟨i, rfl⟩ : ∃ i, j = i + 1 := ⟨j - 1, by omega⟩
    unfold Unc.copyNode
    simp only [Memo.empty, List.lookup_nil, h.nodes i (by omega), copyItems]
    have := ih (j := i) (by omega) (by omega)
    simp only [Memo.empty] at this
    rw [this]

/-- Failure of **C69**: for any limit, there are sums that can be neither copied nor pickled, although their derivatives can be
read. -/
theorem C69_fails (limit : Nat) (n s : F) (hs : specBadStd s = false) (k : Nat) (hk : limit ≤ k) (hk1 : 1 ≤ k) :
    (∃ D, sees (longSum n s k) (.derivatives (.ref k)) = .dict D) ∧
    (deepcopyWithin limit (longSum n s k) (.ref k)).2 = .err .outOfFuel ∧
    (pickleWithin limit (longSum n s k) (.ref k)).2 = .err .outOfFuel := by
  have h := IsSum.ofLongSum n s hs k
  obtain ⟨u, h1, h2, h3⟩ := h.vals k (Nat.le_refl k)
  have hu : (Arg.ref k : Arg F).evalUnc (after (longSum n s k)).env = some u := by simp [Arg.evalUnc, Arg.eval, h1]
  refine ⟨?_, ?_, ?_⟩
  · rcases C04_derivatives_succeed (longSum n s k) (.ref k) with e | e
    · exfalso
      have hm := MShape.after (longSum n s k)
      obtain ⟨w', d, hd, -⟩ := World.derivatives_shape hm.shape (hm.evalUnc hu)
      simp [sees, Machine.step, Machine.read, hu, mapRes, hd, Except.map] at e
    · exact e.1
  · simp only [deepcopyWithin, Machine.copying, hu, World.deepcopyWithin, h3 hk1, h2, h.copyNode false hk (Nat.le_refl k)]
  · simp only [pickleWithin, Machine.copying, hu, World.pickleWithin, h3 hk1, h2, h.copyNode true hk (Nat.le_refl k)]

/-- The same with floats: any sum of more than 1000 terms, for a limit of 1000. -/
example : (deepcopyWithin 1000 (longSum (1 : ZN) 1 2000) (.ref 2000)).2 = .err .outOfFuel :=
  (C69_fails 1000 1 1 (by decide) 2000 (by decide) (by decide)).2.1

end Unc
