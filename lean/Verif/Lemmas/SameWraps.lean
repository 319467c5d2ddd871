import Verif.Lemmas.Shape4

/-
What a program sees depends on the wrapped functions only through their definitions: two states that differ only by what the
wrapped functions have already fetched and memoized cannot be distinguished.
-/

namespace Unc

set_option linter.unusedSectionVars false
set_option autoImplicit false

variable {F : Type}

/-- The same world, with other states of the wrapped functions. -/
def World.withW (w : World F) (W : List (Wrapped F)) : World F := { w with wraps := W }

@[simp] theorem World.withW_nodes (w : World F) (W : List (Wrapped F)) : (w.withW W).nodes = w.nodes := rfl
@[simp] theorem World.withW_vars (w : World F) (W : List (Wrapped F)) : (w.withW W).vars = w.vars := rfl
@[simp] theorem World.withW_wraps (w : World F) (W : List (Wrapped F)) : (w.withW W).wraps = W := rfl
@[simp] theorem World.withW_self (w : World F) : w.withW w.wraps = w := rfl
@[simp] theorem World.withW_withW (w : World F) (W W' : List (Wrapped F)) : (w.withW W).withW W' = w.withW W' := rfl

/-- The result of an operation, with other states of the wrapped functions. -/
def fw {α : Type} (W : List (Wrapped F)) (r : World F × α) : World F × α := (r.1.withW W, r.2)

@[simp] theorem fw_mk {α : Type} (W : List (Wrapped F)) (w : World F) (a : α) : fw W (w, a) = (w.withW W, a) := rfl

@[simp] theorem World.alloc_withW (w : World F) (W : List (Wrapped F)) (lc : LC F) : (w.withW W).alloc lc = fw W (w.alloc lc) := rfl

section
variable [PyFloat F]

@[simp] theorem World.derivatives_withW (w : World F) (W : List (Wrapped F)) (u : UF F) :
    (w.withW W).derivatives u = fw W (w.derivatives u) := rfl

@[simp] theorem World.errorComponents_withW (w : World F) (W : List (Wrapped F)) (u : UF F) :
    (w.withW W).errorComponents u = fw W (w.errorComponents u) := by
  unfold World.errorComponents
  rw [World.derivatives_withW]
  rcases w.derivatives u with ⟨w1, r⟩
  cases r <;> rfl

@[simp] theorem World.affStdDev_withW (w : World F) (W : List (Wrapped F)) (u : UF F) :
    (w.withW W).affStdDev u = fw W (w.affStdDev u) := by
  unfold World.affStdDev
  rw [World.errorComponents_withW]
  rcases w.errorComponents u with ⟨w1, r⟩
  cases r with
  | error e => rfl
  | ok l =>
    simp only [fw_mk]
    cases sumSquares (l.map Prod.snd) 0 <;> rfl

@[simp] theorem World.stdDev_withW (w : World F) (W : List (Wrapped F)) (u : UF F) :
    (w.withW W).stdDev u = fw W (w.stdDev u) := by
  unfold World.stdDev
  cases u.var with
  | none => simp
  | some v =>
    simp only [World.withW_vars]
    cases w.vars[v]? <;> rfl

@[simp] theorem World.stdDevOf_withW (w : World F) (W : List (Wrapped F)) (v : Val F) :
    (w.withW W).stdDevOf v = fw W (w.stdDevOf v) := by
  cases v <;> simp [World.stdDevOf]

@[simp] theorem World.stdScore_withW (w : World F) (W : List (Wrapped F)) (u : UF F) (x : F) :
    (w.withW W).stdScore u x = fw W (w.stdScore u x) := by
  unfold World.stdScore
  rw [World.stdDev_withW]
  rcases w.stdDev u with ⟨w1, r⟩
  cases r with
  | error e => cases e <;> rfl
  | ok s =>
    simp only [fw_mk]
    cases PyFloat.truediv (x - u.nom) s with
    | error e => cases e <;> rfl
    | ok _ => rfl

theorem World.covRow_withW (d1 : Derivs F) (W : List (Wrapped F)) (us : List (UF F)) (w : World F) :
    World.covRow d1 us (w.withW W) = fw W (World.covRow d1 us w) := by
  induction us generalizing w with
  | nil => rfl
  | cons u us ih =>
    unfold World.covRow
    rw [World.derivatives_withW]
    rcases w.derivatives u with ⟨w1, r⟩
    cases r with
    | error e => rfl
    | ok d2 =>
      simp only [fw_mk, World.withW_vars]
      cases covElem w1.vars d2 d1 0 with
      | error e => rfl
      | ok x =>
        simp only [ih]
        rcases World.covRow d1 us w1 with ⟨w2, r2⟩
        cases r2 <;> rfl

theorem World.covRows_withW (W : List (Wrapped F)) (us : List (UF F)) (done : List (UF F)) (w : World F) :
    World.covRows done us (w.withW W) = fw W (World.covRows done us w) := by
  induction us generalizing w done with
  | nil => rfl
  | cons u us ih =>
    unfold World.covRows
    rw [World.derivatives_withW]
    rcases w.derivatives u with ⟨w1, r⟩
    cases r with
    | error e => rfl
    | ok d2 =>
      simp only [fw_mk, World.covRow_withW]
      rcases World.covRow d2 (done ++ [u]) w1 with ⟨w2, r2⟩
      cases r2 with
      | error e => rfl
      | ok x =>
        simp only [fw_mk, ih]
        rcases World.covRows (done ++ [u]) us w2 with ⟨w3, r3⟩
        cases r3 <;> rfl

@[simp] theorem World.covarianceMatrix_withW (w : World F) (W : List (Wrapped F)) (us : List (UF F)) :
    (w.withW W).covarianceMatrix us = fw W (w.covarianceMatrix us) := by
  unfold World.covarianceMatrix
  rw [World.covRows_withW]
  rcases World.covRows [] us w with ⟨w1, r⟩
  cases r <;> rfl

@[simp] theorem World.toAffine_withW (w : World F) (W : List (Wrapped F)) (v : Val F) :
    (w.withW W).toAffine v = fw W (w.toAffine v) := by
  cases v with
  | unc u => rfl
  | plain x => cases x <;> rfl

@[simp] theorem World.ufloat_withW (w : World F) (W : List (Wrapped F)) (n s : F) (t : Option String) :
    (w.withW W).ufloat n s t = fw W (w.ufloat n s t) := by
  unfold World.ufloat
  split <;> rfl

@[simp] theorem World.assignStd_withW (w : World F) (W : List (Wrapped F)) (u : UF F) (s : F) :
    (w.withW W).assignStd u s = fw W (w.assignStd u s) := by
  unfold World.assignStd World.setStd
  cases u.var with
  | none => rfl
  | some v =>
    simp only [World.withW_vars]
    cases w.vars[v]? with
    | none => rfl
    | some c => simp only; split <;> rfl

@[simp] theorem World.copyVar_withW (w : World F) (W : List (Wrapped F)) (v : VarId) :
    (w.withW W).copyVar v = fw W (w.copyVar v) := by
  unfold World.copyVar
  simp only [World.withW_vars]
  cases w.vars[v]? with
  | none => rfl
  | some c => simp

@[simp] theorem World.copy_withW (w : World F) (W : List (Wrapped F)) (u : UF F) :
    (w.withW W).copy u = fw W (w.copy u) := by
  unfold World.copy
  cases u.var <;> simp

theorem copyVarMemo_withW (share : Bool) (w : World F) (W : List (Wrapped F)) (m : Memo) (v : VarId) :
    copyVarMemo share (w.withW W) m v = fw W (copyVarMemo share w m v) := by
  unfold copyVarMemo
  cases m.vars.lookup v with
  | some v' => rfl
  | none =>
    simp only [World.withW_vars, World.withW_nodes]
    cases w.vars[v]? with
    | none => rfl
    | some c =>
      simp only [World.ufloat_withW]
      split
      · split
        · split <;> rfl
        · rfl
      · rcases w.ufloat c.nom c.std c.tag with ⟨w1, r⟩
        cases r with
        | error e => rfl
        | ok u =>
          simp only [fw_mk]
          cases u.var <;> rfl

theorem copyDict_withW (share : Bool) (W : List (Wrapped F)) (d : Derivs F) (w : World F) (m : Memo) :
    copyDict share d (w.withW W) m = fw W (copyDict share d w m) := by
  induction d generalizing w m with
  | nil => rfl
  | cons p d ih =>
    obtain ⟨v, x⟩ := p
    unfold copyDict
    rw [copyVarMemo_withW]
    rcases copyVarMemo share w m v with ⟨w1, m1, r⟩
    cases r with
    | error e => rfl
    | ok v' =>
      simp only [fw_mk, ih]
      rcases copyDict share d w1 m1 with ⟨w2, m2, r2⟩
      cases r2 <;> rfl

theorem copyItems_withW (W : List (Wrapped F)) (cp : NodeId → World F → Memo → World F × Memo × PyRes NodeId)
    (hcp : ∀ i w m, cp i (w.withW W) m = fw W (cp i w m)) (ts : List (Item F)) (w : World F) (m : Memo) :
    copyItems cp ts (w.withW W) m = fw W (copyItems cp ts w m) := by
  induction ts generalizing w m with
  | nil => rfl
  | cons t ts ih =>
    cases t with
    | junk =>
      unfold copyItems
      rw [ih]
      rcases copyItems cp ts w m with ⟨w1, m1, r⟩
      cases r <;> rfl
    | pair c j =>
      unfold copyItems
      rw [ih]
      rcases copyItems cp ts w m with ⟨w1, m1, r⟩
      cases r with
      | error e => rfl
      | ok ts' =>
        simp only [fw_mk, hcp]
        rcases cp j w1 m1 with ⟨w2, m2, r2⟩
        cases r2 <;> rfl

theorem copyNode_withW (share : Bool) (W : List (Wrapped F)) (fuel : Nat) (i : NodeId) (w : World F) (m : Memo) :
    copyNode share fuel i (w.withW W) m = fw W (copyNode share fuel i w m) := by
  induction fuel generalizing i w m with
  | zero => rfl
  | succ fuel ih =>
    unfold copyNode
    cases m.nodes.lookup i with
    | some i' => rfl
    | none =>
      simp only [World.withW_nodes]
      cases w.nodes[i]? with
      | none => rfl
      | some lc =>
        cases lc with
        | dict d =>
          simp only [copyDict_withW]
          rcases copyDict share d w m with ⟨w1, m1, r⟩
          cases r with
          | error e => rfl
          | ok d' =>
            simp only [fw_mk]
            cases m1.nodes.lookup i <;> rfl
        | terms ts =>
          simp only
          rw [copyItems_withW W _ ih]
          rcases copyItems (copyNode share fuel) ts w m with ⟨w1, m1, r⟩
          cases r <;> rfl

@[simp] theorem World.deepcopy_withW (w : World F) (W : List (Wrapped F)) (u : UF F) :
    (w.withW W).deepcopy u = fw W (w.deepcopy u) := by
  unfold World.deepcopy
  cases u.var with
  | some v => simp
  | none =>
    simp only [copyNode_withW]
    rcases copyNode false (u.lin + 1) u.lin w Memo.empty with ⟨w1, m1, r⟩
    cases r <;> rfl

theorem pickleOne_withW (w : World F) (W : List (Wrapped F)) (m : Memo) (u : UF F) :
    pickleOne (w.withW W) m u = fw W (pickleOne w m u) := by
  unfold pickleOne
  cases u.var with
  | some v =>
    simp only [copyVarMemo_withW]
    rcases copyVarMemo true w m v with ⟨w1, m1, r⟩
    cases r with
    | error e => rfl
    | ok v' =>
      simp only [fw_mk, World.withW_vars]
      cases w1.vars[v']? <;> rfl
  | none =>
    simp only [copyNode_withW]
    rcases copyNode true (u.lin + 1) u.lin w m with ⟨w1, m1, r⟩
    cases r <;> rfl

theorem pickleList_withW (W : List (Wrapped F)) (us : List (UF F)) (w : World F) (m : Memo) :
    pickleList us (w.withW W) m = fw W (pickleList us w m) := by
  induction us generalizing w m with
  | nil => rfl
  | cons u us ih =>
    unfold pickleList
    rw [pickleOne_withW]
    rcases pickleOne w m u with ⟨w1, m1, r⟩
    cases r with
    | error e => rfl
    | ok u' =>
      simp only [fw_mk, ih]
      rcases pickleList us w1 m1 with ⟨w2, r2⟩
      cases r2 <;> rfl

@[simp] theorem World.pickle_withW (w : World F) (W : List (Wrapped F)) (us : List (UF F)) :
    (w.withW W).pickle us = fw W (w.pickle us) := pickleList_withW W us w Memo.empty

end

section
variable [PyMath F]

@[simp] theorem World.variable_withW (w : World F) (W : List (Wrapped F)) (u : UF F) (v : VarId) :
    (w.withW W).variable u v = fw W (w.variable u v) := by
  unfold World.variable
  rw [World.derivatives_withW]
  rcases w.derivatives u with ⟨w1, r⟩
  cases r with
  | error e => rfl
  | ok d =>
    simp only [fw_mk, World.withW_vars]
    cases d.lookup v with
    | none => rfl
    | some _ =>
      simp only
      cases w1.vars[v]? <;> rfl

@[simp] theorem World.tag_withW (w : World F) (W : List (Wrapped F)) (u : UF F) : (w.withW W).tag u = fw W (w.tag u) := by
  unfold World.tag
  cases u.var with
  | none => rfl
  | some v =>
    simp only [World.withW_vars]
    cases w.vars[v]? <;> rfl

@[simp] theorem World.isConst_withW (w : World F) (W : List (Wrapped F)) (v : Val F) : (w.withW W).isConst v = w.isConst v := by
  cases v <;> rfl

@[simp] theorem World.modf_withW (w : World F) (W : List (Wrapped F)) (v : Val F) : (w.withW W).modf v = fw W (w.modf v) := by
  unfold World.modf
  rw [World.toAffine_withW]
  rcases w.toAffine v with ⟨w1, r⟩
  cases r with
  | error e => rfl
  | ok o =>
    cases o with
    | none => rfl
    | some u =>
      simp only [fw_mk, World.linTruthy, World.withW_nodes]
      cases w1.nodes[u.lin]? with
      | none => rfl
      | some lc => simp only; cases lc.truthy <;> rfl

@[simp] theorem World.ldexp_withW (w : World F) (W : List (Wrapped F)) (v : Val F) (i : Int) :
    (w.withW W).ldexp v i = fw W (w.ldexp v i) := by
  unfold World.ldexp
  rw [World.toAffine_withW]
  rcases w.toAffine v with ⟨w1, r⟩
  cases r with
  | error e => rfl
  | ok o =>
    cases o with
    | none => rfl
    | some u =>
      simp only [fw_mk, World.linTruthy, World.withW_nodes]
      cases w1.nodes[u.lin]? with
      | none => rfl
      | some lc =>
        simp only
        cases lc.truthy with
        | true => simp only; cases PyMath.ldexp u.nom i <;> rfl
        | false =>
          simp only
          cases v with
          | unc _ => rfl
          | plain x =>
            cases x with
            | flt a => simp only; cases PyMath.ldexp a i <;> rfl
            | _ => rfl

end

/-! ### Calls -/

section
variable [PyFloat F]

/-- What the loop over the positional arguments gives. -/
def posSpec (df : WrapDef F) (av : List (PyVal F)) (kv : KwArgs F) : Nat → List (Val F) → List (Item F) → PyRes (List (Item F))
  | _, [], acc => .ok acc
  | k, .plain _ :: rest, acc => posSpec df av kv (k + 1) rest acc
  | k, .unc u :: rest, acc =>
    match df.specPos k av kv with
    | .error e => .error e
    | .ok c => posSpec df av kv (k + 1) rest (.pair c u.lin :: acc)

/-- What the loop over the keyword arguments gives. -/
def kwSpec (df : WrapDef F) (av : List (PyVal F)) (kv : KwArgs F) : List (String × Val F) → List (Item F) → PyRes (List (Item F))
  | [], acc => .ok acc
  | (_, .plain _) :: rest, acc => kwSpec df av kv rest acc
  | (name, .unc u) :: rest, acc =>
    match df.specKw name av kv with
    | .error e => .error e
    | .ok c => kwSpec df av kv rest (.pair c u.lin :: acc)

/-- The end of a call, from the loop over the keyword arguments on. -/
def kwEnd (df : WrapDef F) (av : List (PyVal F)) (kv : KwArgs F) (v : PyVal F) (rest : List (String × Val F)) (acc : List (Item F)) :
    PyRes (PyVal F ⊕ (F × List (Item F))) :=
  match kwSpec df av kv rest acc with
  | .error e => .error e
  | .ok acc =>
    match v.toFloat with
    | .error e => .error e
    | .ok x => .ok (.inr (x, acc))

/-- The end of a call, from the loop over the positional arguments on. -/
def posEnd (df : WrapDef F) (args : List (Val F)) (kwargs : List (String × Val F)) (v : PyVal F) (k : Nat) (rest : List (Val F))
    (acc : List (Item F)) : PyRes (PyVal F ⊕ (F × List (Item F))) :=
  match posSpec df (args.map Val.nominal) (kwargs.map fun p => (p.1, p.2.nominal)) k rest acc with
  | .error e => .error e
  | .ok acc => kwEnd df (args.map Val.nominal) (kwargs.map fun p => (p.1, p.2.nominal)) v kwargs acc

/-- What a call gives. -/
def callSpec (df : WrapDef F) (args : List (Val F)) (kwargs : List (String × Val F)) : PyRes (PyVal F ⊕ (F × List (Item F))) :=
  match df.f (args.map Val.nominal) (kwargs.map fun p => (p.1, p.2.nominal)) with
  | .error e => .error e
  | .ok v =>
    if args.all (fun a => !a.isUnc) && kwargs.all (fun p => !p.2.isUnc) then .ok (.inl v)
    else if !v.floatLike then .ok (.inl .notImpl)
    else posEnd df args kwargs v 0 args []

theorem posTerms_posSpec (av : List (PyVal F)) (kv : KwArgs F) (rest : List (Val F)) (k : Nat) (wf : Wrapped F) (hok : wf.OK)
    (acc : List (Item F)) :
    ∃ wf', posTerms av kv k rest wf acc = (wf', posSpec wf.df av kv k rest acc) ∧ wf'.OK ∧ wf'.df = wf.df := by
  induction rest generalizing k wf acc with
  | nil => exact ⟨wf, rfl, hok, rfl⟩
  | cons a rest ih =>
    cases a with
    | plain v => exact ih (k + 1) wf hok acc
    | unc u =>
      obtain ⟨wf1, h1, h2, h3⟩ := Wrapped.posDeriv_ok hok k
      simp only [posTerms, posSpec, h1]
      cases wf.df.specPos k av kv with
      | error e => exact ⟨wf1, rfl, h2, h3⟩
      | ok c =>
        obtain ⟨wf2, g1, g2, g3⟩ := ih (k + 1) wf1 h2 (.pair c u.lin :: acc)
        exact ⟨wf2, by rw [← h3]; exact g1, g2, g3.trans h3⟩

theorem kwTerms_kwSpec (av : List (PyVal F)) (kv : KwArgs F) (rest : List (String × Val F)) (wf : Wrapped F) (hok : wf.OK)
    (acc : List (Item F)) :
    ∃ wf', kwTerms av kv rest wf acc = (wf', kwSpec wf.df av kv rest acc) ∧ wf'.OK ∧ wf'.df = wf.df := by
  induction rest generalizing wf acc with
  | nil => exact ⟨wf, rfl, hok, rfl⟩
  | cons a rest ih =>
    obtain ⟨name, a⟩ := a
    cases a with
    | plain v => exact ih wf hok acc
    | unc u =>
      obtain ⟨wf1, h1, h2, h3⟩ := Wrapped.kwDeriv_ok hok name
      simp only [kwTerms, kwSpec, h1]
      cases wf.df.specKw name av kv with
      | error e => exact ⟨wf1, rfl, h2, h3⟩
      | ok c =>
        obtain ⟨wf2, g1, g2, g3⟩ := ih wf1 h2 (.pair c u.lin :: acc)
        exact ⟨wf2, by rw [← h3]; exact g1, g2, g3.trans h3⟩

theorem callTerms_callSpec (wf : Wrapped F) (hok : wf.OK) (args : List (Val F)) (kwargs : List (String × Val F)) :
    ∃ wf', callTerms wf args kwargs = (wf', callSpec wf.df args kwargs) ∧ wf'.OK ∧ wf'.df = wf.df := by
  simp only [callTerms, callSpec]
  cases wf.df.f (args.map Val.nominal) (kwargs.map fun p => (p.1, p.2.nominal)) with
  | error e => simp only; split <;> exact ⟨wf, rfl, hok, rfl⟩
  | ok v =>
    simp only
    split
    · exact ⟨wf, rfl, hok, rfl⟩
    · split
      · exact ⟨wf, rfl, hok, rfl⟩
      · obtain ⟨wf1, h1, h2, h3⟩ := posTerms_posSpec (args.map Val.nominal) (kwargs.map fun p => (p.1, p.2.nominal)) args 0 wf hok []
        simp only [h1, posEnd]
        cases posSpec wf.df (args.map Val.nominal) (kwargs.map fun p => (p.1, p.2.nominal)) 0 args [] with
        | error e => exact ⟨wf1, rfl, h2, h3⟩
        | ok acc =>
          obtain ⟨wf2, g1, g2, g3⟩ := kwTerms_kwSpec (args.map Val.nominal) (kwargs.map fun p => (p.1, p.2.nominal)) kwargs wf1 h2 acc
          simp only [g1, kwEnd, h3]
          cases kwSpec wf.df (args.map Val.nominal) (kwargs.map fun p => (p.1, p.2.nominal)) kwargs acc with
          | error e => exact ⟨wf2, rfl, g2, g3.trans h3⟩
          | ok acc => simp only; cases v.toFloat <;> exact ⟨wf2, rfl, g2, g3.trans h3⟩

/-- The same definitions, whatever was fetched or memoized. -/
structure WSame (W W' : List (Wrapped F)) : Prop where
  defs : W'.map Wrapped.df = W.map Wrapped.df
  ok : ∀ (i : Nat) wf, W[i]? = some wf → wf.OK
  ok' : ∀ (i : Nat) wf, W'[i]? = some wf → wf.OK

theorem WSame.get {W W' : List (Wrapped F)} (h : WSame W W') (i : Nat) :
    (W[i]? = none ∧ W'[i]? = none) ∨ ∃ wf wf', W[i]? = some wf ∧ W'[i]? = some wf' ∧ wf.OK ∧ wf'.OK ∧ wf'.df = wf.df := by
  have hd : (W'.map Wrapped.df)[i]? = (W.map Wrapped.df)[i]? := by rw [h.defs]
  rw [List.getElem?_map, List.getElem?_map] at hd
  cases h1 : W[i]? with
  | none =>
    rw [h1] at hd
    left
    refine ⟨rfl, ?_⟩
    cases h2 : W'[i]? with
    | none => rfl
    | some _ => rw [h2] at hd; cases hd
  | some wf =>
    rw [h1] at hd
    right
    cases h2 : W'[i]? with
    | none => rw [h2] at hd; cases hd
    | some wf' =>
      rw [h2] at hd
      exact ⟨wf, wf', rfl, rfl, h.ok i wf h1, h.ok' i wf' h2, by simpa using hd⟩

theorem set_ok {W : List (Wrapped F)} (h : ∀ (i : Nat) wf, W[i]? = some wf → wf.OK) (n : Nat) {wf : Wrapped F} (hwf : wf.OK) :
    ∀ (i : Nat) wf', (W.set n wf)[i]? = some wf' → wf'.OK := by
  intro i wf' hi
  rw [List.getElem?_set] at hi
  split at hi
  · split at hi
    · cases hi; exact hwf
    · cases hi
  · exact h i wf' hi

theorem WSame.set {W W' : List (Wrapped F)} (h : WSame W W') (i : Nat) {wf wf' : Wrapped F} (h1 : wf.OK) (h2 : wf'.OK)
    (h3 : wf'.df = wf.df) : WSame (W.set i wf) (W'.set i wf') :=
  ⟨by rw [List.map_set, List.map_set, h.defs, h3], set_ok h.ok i h1, set_ok h.ok' i h2⟩

/-- Two results that cannot be distinguished. -/
def SameR {α : Type} (r r' : World F × α) : Prop := ∃ W', r' = fw W' r ∧ WSame r.1.wraps W'

theorem call_same {w : World F} {W : List (Wrapped F)} (h : WSame w.wraps W) (fid : Nat) (args : List (Val F))
    (kwargs : List (String × Val F)) : SameR (w.call fid args kwargs) ((w.withW W).call fid args kwargs) := by
  unfold World.call
  simp only [World.withW_wraps]
  rcases h.get fid with ⟨h1, h2⟩ | ⟨wf, wf', h1, h2, o1, o2, hd⟩
  · rw [h1, h2]
    exact ⟨W, rfl, h⟩
  · rw [h1, h2]
    obtain ⟨wf1, a1, a2, a3⟩ := callTerms_callSpec wf o1 args kwargs
    obtain ⟨wf2, b1, b2, b3⟩ := callTerms_callSpec wf' o2 args kwargs
    rw [hd] at b1 b3
    have hs := h.set fid a2 b2 (b3.trans a3.symm)
    simp only [a1, b1]
    cases callSpec wf.df args kwargs with
    | error e => exact ⟨_, rfl, hs⟩
    | ok r =>
      cases r with
      | inl v => exact ⟨_, rfl, hs⟩
      | inr p => exact ⟨_, rfl, hs⟩

end

section
variable [PyMath F]

/-- Operations that do not look at the wrapped functions. -/
theorem sameR_of_withW {α : Type} (g : World F → World F × α) (hg : ∀ w W, g (w.withW W) = fw W (g w)) {w : World F}
    {W : List (Wrapped F)} (h : WSame w.wraps W) : SameR (g w) (g (w.withW W)) := by
  refine ⟨W, hg w W, ?_⟩
  have h1 := hg w w.wraps
  rw [World.withW_self] at h1
  have h2 : (g w).1.wraps = w.wraps := by rw [h1]; rfl
  rw [h2]; exact h

/-- Sequences of operations. -/
theorem SameR.bind {α β : Type} {r r' : World F × α} (h : SameR r r') (k : World F × α → World F × β)
    (hk : ∀ w a W, WSame w.wraps W → SameR (k (w, a)) (k (w.withW W, a))) : SameR (k r) (k r') := by
  obtain ⟨W, h1, h2⟩ := h
  obtain ⟨w, a⟩ := r
  subst h1
  exact hk w a W h2

theorem eqAff_same {w : World F} {W : List (Wrapped F)} (h : WSame w.wraps W) (sub : Nat) (x y : UF F) :
    SameR (w.eqAff sub x y) ((w.withW W).eqAff sub x y) := by
  unfold World.eqAff
  refine (call_same h sub [.unc x, .unc y] []).bind (β := PyRes Bool) (fun r => match r with
    | (w, .error e) => (w, .error e)
    | (w, .ok (.plain _)) => (w, .error .attributeError)
    | (w, .ok (.unc diff)) =>
      if PyFloat.truthy diff.nom then (w, .ok false)
      else
        match w.stdDev diff with
        | (w, .error e) => (w, .error e)
        | (w, .ok s) => (w, .ok (!PyFloat.truthy s))) ?_
  intro w r W h
  cases r with
  | error e => exact ⟨W, rfl, h⟩
  | ok v =>
    cases v with
    | plain _ => exact ⟨W, rfl, h⟩
    | unc d =>
      simp only
      split
      · exact ⟨W, rfl, h⟩
      · refine (sameR_of_withW (fun w => w.stdDev d) (fun w W => World.stdDev_withW w W d) h).bind (β := PyRes Bool) (fun r => match r with
          | (w, .error e) => (w, .error e)
          | (w, .ok s) => (w, .ok (!PyFloat.truthy s))) ?_
        intro w r W h
        cases r <;> exact ⟨W, rfl, h⟩

theorem cmpAff_same {w : World F} {W : List (Wrapped F)} (h : WSame w.wraps W) (sub : Nat) (op : CmpOp) (x y : UF F) :
    SameR (w.cmpAff sub op x y) ((w.withW W).cmpAff sub op x y) := by
  cases op with
  | eq => exact eqAff_same h sub x y
  | ne =>
    refine (eqAff_same h sub x y).bind (β := PyRes Bool) (fun r => match r with
      | (w, .error e) => (w, .error e)
      | (w, .ok b) => (w, .ok (!b))) ?_
    intro w r W h
    cases r <;> exact ⟨W, rfl, h⟩
  | gt => exact ⟨W, rfl, h⟩
  | lt => exact ⟨W, rfl, h⟩
  | ge =>
    simp only [World.cmpAff, World.geAff, World.gtAff]
    cases PyFloat.ltb y.nom x.nom with
    | true => exact ⟨W, rfl, h⟩
    | false => exact eqAff_same h sub x y
  | le =>
    simp only [World.cmpAff, World.leAff, World.ltAff]
    cases PyFloat.ltb x.nom y.nom with
    | true => exact ⟨W, rfl, h⟩
    | false => exact eqAff_same h sub x y

theorem cmp_same {w : World F} {W : List (Wrapped F)} (h : WSame w.wraps W) (sub : Nat) (op : CmpOp) (x : UF F) (y : Val F) :
    SameR (w.cmp sub op x y) ((w.withW W).cmp sub op x y) := by
  refine (sameR_of_withW (fun w => w.toAffine y) (fun w W => World.toAffine_withW w W y) h).bind (β := PyRes (Option Bool)) (fun r => match r with
    | (w, .error e) => (w, .error e)
    | (w, .ok none) => (w, .ok none)
    | (w, .ok (some y')) =>
      match w.cmpAff sub op x y' with
      | (w, .error e) => (w, .error e)
      | (w, .ok b) => (w, .ok (some b))) ?_
  intro w r W h
  cases r with
  | error e => exact ⟨W, rfl, h⟩
  | ok o =>
    cases o with
    | none => exact ⟨W, rfl, h⟩
    | some y' =>
      refine (cmpAff_same h sub op x y').bind (β := PyRes (Option Bool)) (fun r => match r with
        | (w, .error e) => (w, .error e)
        | (w, .ok b) => (w, .ok (some b))) ?_
      intro w r W h
      cases r <;> exact ⟨W, rfl, h⟩

theorem cmpRun_same {w : World F} {W : List (Wrapped F)} (h : WSame w.wraps W) (op : CmpOp) (x : UF F) (y : Val F) :
    SameR (w.cmpRun op x y) ((w.withW W).cmpRun op x y) := by
  refine (cmp_same h BinOp.sub.id op x y).bind (β := PyRes Bool) (fun r => match r with
    | (w, .error e) => (w, .error e)
    | (w, .ok (some r)) => (w, .ok r)
    | (w, .ok none) => (w, op.fallback)) ?_
  intro w r W h
  cases r with
  | error e => exact ⟨W, rfl, h⟩
  | ok o => cases o <;> exact ⟨W, rfl, h⟩

theorem compare_same {w : World F} {W : List (Wrapped F)} (h : WSame w.wraps W) (op : CmpOp) (x y : Val F) :
    SameR (w.compare op x y) ((w.withW W).compare op x y) := by
  cases x with
  | unc a =>
    cases y with
    | unc b =>
      simp only [World.compare]
      split <;> exact cmpRun_same h _ _ _
    | plain b => exact cmpRun_same h _ _ _
  | plain a =>
    cases y with
    | unc b => exact cmpRun_same h _ _ _
    | plain b => exact ⟨W, rfl, h⟩

theorem toBool_same {w : World F} {W : List (Wrapped F)} (h : WSame w.wraps W) (sub : Nat) (x : UF F) :
    SameR (w.toBool sub x) ((w.withW W).toBool sub x) := by
  refine (cmp_same h sub .ne x (.plain (.flt 0))).bind (β := PyRes Bool) (fun r => match r with
    | (w, .error e) => (w, .error e)
    | (w, .ok (some b)) => (w, .ok b)
    | (w, .ok none) => (w, .ok true)) ?_
  intro w r W h
  cases r with
  | error e => exact ⟨W, rfl, h⟩
  | ok o => cases o <;> exact ⟨W, rfl, h⟩

theorem binop_same {w : World F} {W : List (Wrapped F)} (h : WSame w.wraps W) (op : BinOp) (a b : Val F) :
    SameR (w.binop op a b) ((w.withW W).binop op a b) := by
  have key : ∀ (b : Val F) (w : World F) (W : List (Wrapped F)), WSame w.wraps W →
      SameR (match b with
        | .plain _ => (w, .error .typeError)
        | .unc _ =>
          match w.call op.rid [b, a] [] with
          | (w, .ok (.plain .notImpl)) => (w, .error .typeError)
          | r => r)
        (match b with
        | .plain _ => (w.withW W, .error .typeError)
        | .unc _ =>
          match (w.withW W).call op.rid [b, a] [] with
          | (w, .ok (.plain .notImpl)) => (w, .error .typeError)
          | r => r) := by
    intro b w W h
    cases b with
    | plain v => exact ⟨W, rfl, h⟩
    | unc u =>
      refine (call_same h op.rid [.unc u, a] []).bind (β := PyRes (Val F)) (fun r => match r with
        | (w, .ok (.plain .notImpl)) => (w, .error .typeError)
        | r => r) ?_
      intro w r W h
      cases r with
      | error e => exact ⟨W, rfl, h⟩
      | ok o =>
        cases o with
        | unc _ => exact ⟨W, rfl, h⟩
        | plain v => cases v <;> exact ⟨W, rfl, h⟩
  unfold World.binop
  cases a with
  | plain v => exact key b w W h
  | unc u =>
    simp only
    refine (call_same h op.id [.unc u, b] []).bind (β := PyRes (Val F)) (fun r => match r with
      | (w, .ok (.plain .notImpl)) => (match b with
        | .plain _ => (w, .error .typeError)
        | .unc _ =>
          match w.call op.rid [b, .unc u] [] with
          | (w, .ok (.plain .notImpl)) => (w, .error .typeError)
          | r => r)
      | r => r) ?_
    intro w r W h
    cases r with
    | error e => exact ⟨W, rfl, h⟩
    | ok o =>
      cases o with
      | unc _ => exact ⟨W, rfl, h⟩
      | plain v =>
        cases v with
        | notImpl => exact key b w W h
        | _ => exact ⟨W, rfl, h⟩

/-! ### Histories -/

/-- The same state, with other states of the wrapped functions. -/
def Machine.withW (m : Machine F) (W : List (Wrapped F)) : Machine F := ⟨m.w.withW W, m.env⟩

/-- Two states with what the program sees that cannot be distinguished. -/
def SameM {α : Type} (r r' : Machine F × α) : Prop := ∃ W', r' = (r.1.withW W', r.2) ∧ WSame r.1.w.wraps W'

theorem SameR.bindM {α β : Type} {r r' : World F × α} (h : SameR r r') (k : World F × α → Machine F × β)
    (hk : ∀ w a W, WSame w.wraps W → SameM (k (w, a)) (k (w.withW W, a))) : SameM (k r) (k r') := by
  obtain ⟨W, h1, h2⟩ := h
  obtain ⟨w, a⟩ := r
  subst h1
  exact hk w a W h2

theorem bind_same {w : World F} {W : List (Wrapped F)} (h : WSame w.wraps W) (env : List (Option (Val F))) (r : PyRes (Val F)) :
    SameM (Machine.bind env w r) (Machine.bind env (w.withW W) r) := by
  cases r with
  | error e => exact ⟨W, rfl, h⟩
  | ok v =>
    cases v with
    | unc _ => exact ⟨W, rfl, h⟩
    | plain v => cases v <;> exact ⟨W, rfl, h⟩

theorem read_same {m : Machine F} {W : List (Wrapped F)} (h : WSame m.w.wraps W) (x : Arg F)
    (g : World F → UF F → World F × PyRes (Out F))
    (hg : ∀ (w : World F) (W : List (Wrapped F)) (u : UF F), WSame w.wraps W → SameR (g w u) (g (w.withW W) u)) :
    SameM (m.read x g) ((m.withW W).read x g) := by
  unfold Machine.read
  simp only [Machine.withW]
  cases x.evalUnc m.env with
  | none => exact ⟨W, rfl, h⟩
  | some u =>
    simp only
    refine (hg m.w W u h).bindM (β := Out F) (fun r => match r with
      | (w, .error e) => (⟨w, m.env⟩, .err e)
      | (w, .ok o) => (⟨w, m.env⟩, o)) ?_
    intro w r W h
    cases r <;> exact ⟨W, rfl, h⟩

theorem mapRes_same {α β : Type} (f : α → β) {r r' : World F × PyRes α} (h : SameR r r') : SameR (mapRes f r) (mapRes f r') :=
  h.bind (mapRes f) (fun _ _ W h => ⟨W, rfl, h⟩)

theorem step_same {m : Machine F} {W : List (Wrapped F)} (h : WSame m.w.wraps W) (c : Cmd F) :
    SameM (m.step c) ((m.withW W).step c) := by
  have uf : ∀ (g : World F → World F × PyRes (UF F)), (∀ w W, g (w.withW W) = fw W (g w)) →
      SameM (match g m.w with
        | (w, .error e) => ((⟨w, m.env ++ [none]⟩, .err e) : Machine F × Out F)
        | (w, .ok u) => (⟨w, m.env ++ [some (.unc u)]⟩, .done))
      (match g (m.w.withW W) with
        | (w, .error e) => (⟨w, m.env ++ [none]⟩, .err e)
        | (w, .ok u) => (⟨w, m.env ++ [some (.unc u)]⟩, .done)) := by
    intro g hg
    refine (sameR_of_withW g hg h).bindM (β := Out F) (fun r => match r with
      | (w, .error e) => (⟨w, m.env ++ [none]⟩, .err e)
      | (w, .ok u) => (⟨w, m.env ++ [some (.unc u)]⟩, .done)) ?_
    intro w r W h
    cases r <;> exact ⟨W, rfl, h⟩
  have inv : ∀ n, SameM (m.invalid n) ((m.withW W).invalid n) := fun n => ⟨W, rfl, h⟩
  have hb : ∀ {r r' : World F × PyRes (Val F)}, SameR r r' →
      SameM (match r with | (w, r) => Machine.bind m.env w r) (match r' with | (w, r) => Machine.bind m.env w r) := by
    intro r r' hr
    exact hr.bindM (β := Out F) (fun r => match r with | (w, r) => Machine.bind m.env w r) (fun w a W h => bind_same h m.env a)
  cases c with
  | ufloat n s tag => exact uf (fun w => w.ufloat n s tag) (fun w W => World.ufloat_withW w W n s tag)
  | affine n items =>
    simp only [Machine.step, Machine.withW]
    cases evalArgs (Arg.evalItem m.env) items with
    | none => exact inv 1
    | some d =>
      simp only
      split
      · exact ⟨W, rfl, h⟩
      · exact inv 1
  | wrap df =>
    refine ⟨W ++ [mkWrapped df], rfl, ⟨?_, ?_, ?_⟩⟩
    · simp [Machine.step, World.wrap, h.defs]
    · intro i wf hi
      simp only [Machine.step, World.wrap, List.getElem?_append] at hi
      split at hi
      · exact h.ok i wf hi
      · rw [List.getElem?_singleton] at hi
        split at hi
        · cases hi; exact mkWrapped_ok df
        · cases hi
    · intro i wf hi
      simp only [List.getElem?_append] at hi
      split at hi
      · exact h.ok' i wf hi
      · rw [List.getElem?_singleton] at hi
        split at hi
        · cases hi; exact mkWrapped_ok df
        · cases hi
  | call f args kwargs =>
    have hl : W.length = m.w.wraps.length := by simpa using congrArg List.length h.defs
    simp only [Machine.step, Machine.withW, World.withW_wraps, hl]
    split
    · cases evalArgs (Arg.eval m.env) args with
      | none => exact inv 1
      | some a =>
        cases evalArgs (Arg.evalKw m.env) kwargs with
        | none => exact inv 1
        | some k => exact hb (call_same h f a k)
    · exact inv 1
  | unop op x =>
    simp only [Machine.step, Machine.withW]
    cases x.evalUnc m.env with
    | none => exact inv 1
    | some u => exact hb (call_same h op.id [.unc u] [])
  | binop op x y =>
    simp only [Machine.step, Machine.withW]
    cases x.eval m.env with
    | none => exact inv 1
    | some a =>
      cases y.eval m.env with
      | none => exact inv 1
      | some b =>
        simp only
        split
        · exact hb (binop_same h op a b)
        · exact inv 1
  | modf x =>
    simp only [Machine.step, Machine.withW, World.isConst_withW]
    cases x.eval m.env with
    | none => exact inv 2
    | some v =>
      simp only
      split
      · exact inv 2
      · refine (sameR_of_withW (fun w => w.modf v) (fun w W => World.modf_withW w W v) h).bindM (β := Out F) (fun r => match r with
          | (w, .error e) => (⟨w, m.env ++ [none, none]⟩, .err e)
          | (w, .ok (a, b)) => (⟨w, m.env ++ [some a, some (.plain (.flt b))]⟩, .done)) ?_
        intro w r W h
        cases r <;> exact ⟨W, rfl, h⟩
  | ldexp x i =>
    simp only [Machine.step, Machine.withW, World.isConst_withW]
    cases x.eval m.env with
    | none => exact inv 1
    | some v =>
      simp only
      split
      · exact inv 1
      · exact hb (sameR_of_withW (fun w => w.ldexp v i) (fun w W => World.ldexp_withW w W v i) h)
  | lcst f args kwargs =>
    simp only [Machine.step, Machine.withW]
    cases evalArgs (Arg.eval m.env) args with
    | none => exact inv 1
    | some a =>
      cases evalArgs (Arg.evalKw m.env) kwargs with
      | none => exact inv 1
      | some k => exact bind_same h _ _
  | copy x =>
    simp only [Machine.step, Machine.withW]
    cases x.evalUnc m.env with
    | none => exact inv 1
    | some u => exact uf (fun w => w.copy u) (fun w W => World.copy_withW w W u)
  | deepcopy x =>
    simp only [Machine.step, Machine.withW]
    cases x.evalUnc m.env with
    | none => exact inv 1
    | some u => exact uf (fun w => w.deepcopy u) (fun w W => World.deepcopy_withW w W u)
  | pickle xs =>
    simp only [Machine.step, Machine.withW]
    cases evalArgs (Arg.evalUnc m.env) xs with
    | none => exact inv xs.length
    | some us =>
      refine (sameR_of_withW (fun w => w.pickle us) (fun w W => World.pickle_withW w W us) h).bindM (β := Out F) (fun r => match r with
        | (w, .error e) => (⟨w, m.env ++ List.replicate xs.length none⟩, .err e)
        | (w, .ok us) => (⟨w, m.env ++ us.map (fun u => some (.unc u))⟩, .done)) ?_
      intro w r W h
      cases r <;> exact ⟨W, rfl, h⟩
  | «variable» x v =>
    simp only [Machine.step, Machine.withW]
    cases x.evalUnc m.env with
    | none => exact inv 1
    | some u => exact uf (fun w => w.variable u v) (fun w W => World.variable_withW w W u v)
  | setStd x s =>
    exact read_same h x _ (fun w W u h => mapRes_same _ (sameR_of_withW (fun w => w.assignStd u s) (fun w W => World.assignStd_withW w W u s) h))
  | nominal x =>
    simp only [Machine.step, Machine.withW]
    cases x.eval m.env with
    | none => exact inv 0
    | some v => exact ⟨W, rfl, h⟩
  | stdDev x =>
    simp only [Machine.step, Machine.withW]
    cases x.eval m.env with
    | none => exact inv 0
    | some v =>
      refine (sameR_of_withW (fun w => w.stdDevOf v) (fun w W => World.stdDevOf_withW w W v) h).bindM (β := Out F) (fun r => match r with
        | (w, .error e) => (⟨w, m.env⟩, .err e)
        | (w, .ok s) => (⟨w, m.env⟩, .val (.flt s))) ?_
      intro w r W h
      cases r <;> exact ⟨W, rfl, h⟩
  | s x =>
    exact read_same h x _ (fun w W u h => mapRes_same _ (sameR_of_withW (w := w) (W := W) (fun w => w.affStdDev u) (fun w W => World.affStdDev_withW w W u) h))
  | derivatives x =>
    exact read_same h x _ (fun w W u h => mapRes_same _ (sameR_of_withW (w := w) (W := W) (fun w => w.derivatives u) (fun w W => World.derivatives_withW w W u) h))
  | errorComponents x =>
    exact read_same h x _ (fun w W u h =>
      mapRes_same _ (sameR_of_withW (w := w) (W := W) (fun w => w.errorComponents u) (fun w W => World.errorComponents_withW w W u) h))
  | stdScore x value =>
    exact read_same h x _ (fun w W u h =>
      mapRes_same _ (sameR_of_withW (fun w => w.stdScore u value) (fun w W => World.stdScore_withW w W u value) h))
  | covarianceMatrix xs =>
    simp only [Machine.step, Machine.withW]
    cases evalArgs (Arg.evalUnc m.env) xs with
    | none => exact inv 0
    | some us =>
      refine (sameR_of_withW (fun w => w.covarianceMatrix us) (fun w W => World.covarianceMatrix_withW w W us) h).bindM (β := Out F)
        (fun r => match r with
        | (w, .error e) => (⟨w, m.env⟩, .err e)
        | (w, .ok l) => (⟨w, m.env⟩, .matrix l)) ?_
      intro w r W h
      cases r <;> exact ⟨W, rfl, h⟩
  | compare op x y =>
    simp only [Machine.step, Machine.withW]
    cases x.eval m.env with
    | none => exact inv 0
    | some a =>
      cases y.eval m.env with
      | none => exact inv 0
      | some b =>
        simp only
        split
        · refine (compare_same h op a b).bindM (β := Out F) (fun r => match r with
            | (w, .error e) => (⟨w, m.env⟩, .err e)
            | (w, .ok r) => (⟨w, m.env⟩, .bool r)) ?_
          intro w r W h
          cases r <;> exact ⟨W, rfl, h⟩
        · exact inv 0
  | toBool x => exact read_same h x _ (fun w W u h => mapRes_same _ (toBool_same h _ u))
  | tag x => exact read_same h x _ (fun w W u h => mapRes_same _ (sameR_of_withW (fun w => w.tag u) (fun w W => World.tag_withW w W u) h))

theorem run_same {m : Machine F} {W : List (Wrapped F)} (h : WSame m.w.wraps W) (cs : List (Cmd F)) :
    SameM (m.run cs) ((m.withW W).run cs) := by
  induction cs generalizing m W with
  | nil => exact ⟨W, rfl, h⟩
  | cons c cs ih =>
    obtain ⟨W1, h1, h2⟩ := step_same h c
    simp only [Machine.run, h1]
    obtain ⟨W2, h3, h4⟩ := ih h2
    refine ⟨W2, ?_, h4⟩
    rw [h3]

end

end Unc
