import Mathlib.Data.List.OfFn
import Verif.Model.Arrays
import Verif.Lemmas.Correlated
import Verif.Props.C19_Wrap

/-
Functions of arrays: lemmas.
-/

namespace Unc

set_option autoImplicit false

section generic
variable {F : Type} [PyMath F] {p q : ℕ}

theorem number_arr {α : Type} (base : ℕ) (f : Fin p → Fin q → α) :
    number (F := F) base (arr f) = arr fun (i : Fin p) (j : Fin q) => .ref (base + (i.val * q + j.val)) := by
  unfold arr
  induction p generalizing base with
  | zero => simp [number]
  | succ p ih =>
    simp only [List.ofFn_succ, number, List.length_ofFn]
    rw [ih (base + q) (fun i => f i.succ), range_ofFn]
    simp only [List.cons.injEq, Fin.val_zero, Nat.zero_mul, Nat.zero_add, Fin.val_succ, true_and]
    congr 1; funext i; congr 1; funext j
    congr 1
    ring

theorem flatten_arr {α : Type} (f : Fin p → Fin q → α) (i : Fin p) (j : Fin q) :
    (arr f).flatten[i.val * q + j.val]? = some (f i j) := by
  unfold arr
  induction p with
  | zero => exact i.elim0
  | succ p ih =>
    simp only [List.ofFn_succ, List.flatten_cons]
    refine Fin.cases ?_ (fun i => ?_) i
    · rw [List.getElem?_append_left (by simp)]
      simp
    · rw [List.getElem?_append_right (by simp; nlinarith [j.2])]
      have := ih (fun i => f i.succ) i
      simp only [List.length_ofFn, Fin.val_succ]
      have e : (i.val + 1) * q + j.val - q = i.val * q + j.val := by
        rw [Nat.add_mul, Nat.one_mul]; omega
      rw [e]
      exact this

theorem mem_flatten_arr {α : Type} (f : Fin p → Fin q → α) (a : α) :
    a ∈ (arr f).flatten ↔ ∃ i j, f i j = a := by
  simp only [arr, List.mem_flatten, List.mem_ofFn']
  constructor
  · rintro ⟨l, ⟨i, rfl⟩, h⟩
    obtain ⟨j, rfl⟩ := (List.mem_ofFn' _ _).mp h
    exact ⟨i, j, rfl⟩
  · rintro ⟨i, j, rfl⟩
    exact ⟨_, ⟨i, rfl⟩, (List.mem_ofFn' _ _).mpr ⟨j, rfl⟩⟩

theorem map_arr {α β : Type} (f : Fin p → Fin q → α) (g : α → β) :
    (arr f).map (fun row => row.map g) = arr fun i j => g (f i j) := by
  simp [arr, List.map_ofFn, Function.comp_def]

theorem flatten_map_arr {α β : Type} (f : Fin p → Fin q → α) (g : α → β) :
    (arr f).flatten.map g = (arr fun i j => g (f i j)).flatten := by
  rw [List.map_flatten, map_arr]

theorem mapIdx_arr {α β : Type} (f : Fin p → Fin q → α) (g : ℕ → ℕ → α → β) :
    ((arr f).mapIdx fun i row => row.mapIdx fun j x => g i j x) = arr fun i j => g i j (f i j) := by
  unfold arr
  apply List.ext_getElem
  · simp
  · intro i h1 h2
    simp only [List.getElem_mapIdx, List.getElem_ofFn]
    apply List.ext_getElem <;> simp

theorem zip_flatten_arr {α β : Type} (f : Fin p → Fin q → α) (g : Fin p → Fin q → β) :
    (arr f).flatten.zip (arr g).flatten = (arr fun (i : Fin p) (j : Fin q) => (f i j, g i j)).flatten := by
  unfold arr
  induction p with
  | zero => simp
  | succ p ih =>
    simp only [List.ofFn_succ, List.flatten_cons]
    rw [List.zip_append (by simp), ih, zip_ofFn]

theorem get_arr {α : Type} (f : Fin p → Fin q → α) (i : Fin p) (j : Fin q) :
    ((arr f)[i.val]?).bind (·[j.val]?) = some (f i j) := by
  simp [arr]

theorem evalArray_arr {env : List (Option (Val F))} {A : Fin p → Fin q → Arg F} {v : Fin p → Fin q → Val F}
    (h : ∀ i j, (A i j).eval env = some (v i j)) : evalArray env (arr A) = some (arr v) := by
  unfold evalArray arr
  exact evalArgs_ofFn _ _ _ (fun i => evalArgs_ofFn _ _ _ (h i))

theorem mapRes'_ofFn {α β : Type} {n : ℕ} {f : α → PyRes β} {x : Fin n → α} {y : Fin n → β}
    (h : ∀ i, f (x i) = .ok (y i)) : mapRes' f (List.ofFn x) = .ok (List.ofFn y) := by
  induction n with
  | zero => simp [mapRes']
  | succ n ih =>
    simp only [List.ofFn_succ, mapRes', h 0]
    rw [ih (fun i => h i.succ)]

theorem mapRes'_map {α β : Type} {f : α → PyRes β} {g : α → β} {l : List α}
    (h : ∀ x ∈ l, f x = .ok (g x)) : mapRes' f l = .ok (l.map g) := by
  induction l with
  | nil => rfl
  | cons x l ih =>
    simp only [mapRes', h x (by simp), ih (fun y hy => h y (by simp [hy])), List.map_cons]

theorem nominalValues_arr {v : Fin p → Fin q → Val F} {N : Fin p → Fin q → F}
    (h : ∀ i j, (v i j).floatNominal = .ok (N i j)) : nominalValues (arr v) = .ok (arr N) := by
  unfold nominalValues arr
  exact mapRes'_ofFn (fun i => mapRes'_ofFn (h i))

variable [ExactLin F]

/-- What the dictionary of derivatives of an element is. -/
def DictOf (g : NodeId → Lin F) (v : Val F) (d : Derivs F) : Prop :=
  KeysNodup d ∧
  match v with
  | .unc u => Lin.ofDict d = g u.lin
  | .plain _ => d = []

theorem World.readRow_spec {w : World F} {g : NodeId → Lin F} (h : Inv w g) {n : ℕ} {v : Fin n → Val F}
    (hv : ∀ i, (v i).OK w) :
    ∃ (w' : World F) (d : Fin n → Derivs F), w.readRow (List.ofFn v) = (w', .ok (List.ofFn d)) ∧
      Evolves w g w' g ∧ ∀ i, DictOf g (v i) (d i) := by
  induction n generalizing w with
  | zero => exact ⟨w, fun i => i.elim0, by simp [World.readRow], Evolves.refl h, fun i => i.elim0⟩
  | succ n ih =>
    cases h0 : v 0 with
    | plain x =>
      obtain ⟨w', d, h1, h2, h3⟩ := ih h (v := fun i => v i.succ) (fun i => hv i.succ)
      refine ⟨w', Fin.cons [] d, ?_, h2, ?_⟩
      · simp only [List.ofFn_succ, World.readRow, h0, h1, Fin.cons_zero, Fin.cons_succ]
      · intro i
        refine Fin.cases ?_ (fun i => ?_) i
        · rw [h0, Fin.cons_zero]; exact ⟨List.nodup_nil, rfl⟩
        · rw [Fin.cons_succ]; exact h3 i
    | unc u =>
      have hu : u.OK w := by have := hv 0; rw [h0] at this; exact this
      obtain ⟨w1, d0, a1, a2, a3, a4⟩ := World.derivatives_spec h hu
      obtain ⟨w', d, h1, h2, h3⟩ := ih a2.inv (v := fun i => v i.succ)
        (fun i => Val.OK.evolves' a2.weaken (hv i.succ))
      refine ⟨w', Fin.cons d0 d, ?_, a2.trans h2, ?_⟩
      · simp only [List.ofFn_succ, World.readRow, h0, a1, h1, Fin.cons_zero, Fin.cons_succ]
      · intro i
        refine Fin.cases ?_ (fun i => ?_) i
        · rw [h0, Fin.cons_zero]; exact ⟨a3, a4⟩
        · rw [Fin.cons_succ]; exact h3 i

theorem World.readArray_spec {w : World F} {g : NodeId → Lin F} (h : Inv w g) {v : Fin p → Fin q → Val F}
    (hv : ∀ i j, (v i j).OK w) :
    ∃ (w' : World F) (d : Fin p → Fin q → Derivs F), w.readArray (arr v) = (w', .ok (arr d)) ∧
      Evolves w g w' g ∧ ∀ i j, DictOf g (v i j) (d i j) := by
  unfold arr
  induction p generalizing w with
  | zero => exact ⟨w, fun i => i.elim0, by simp [World.readArray], Evolves.refl h, fun i => i.elim0⟩
  | succ p ih =>
    obtain ⟨w1, d0, a1, a2, a3⟩ := World.readRow_spec h (hv 0)
    obtain ⟨w', d, h1, h2, h3⟩ := ih a2.inv (v := fun i => v i.succ)
      (fun i j => Val.OK.evolves' a2.weaken (hv i.succ j))
    refine ⟨w', Fin.cons d0 d, ?_, a2.trans h2, ?_⟩
    · simp only [List.ofFn_succ, World.readArray, a1, h1, Fin.cons_zero, Fin.cons_succ]
    · intro i
      refine Fin.cases ?_ (fun i => ?_) i
      · rw [Fin.cons_zero]; exact a3
      · rw [Fin.cons_succ]; exact h3 i

/-- State after references to variables. -/
theorem Reaches.variables {cs : List (Cmd F)} {s : SState F} (h : Reaches cs s) (l : List VarId)
    (x : VarId → Arg F) (c : VarId → SVar F)
    (hl : ∀ v ∈ l, (∃ Q d, (x v).sevalUnc s.env = some Q ∧ Q.grad v = some d) ∧ s.vars[v]? = some (c v)) :
    Reaches (cs ++ l.map fun v => .variable (x v) v)
      { s with env := s.env ++ l.map fun v => some (.unc ⟨(c v).nom, Lin.single v, some v⟩) } := by
  induction l generalizing cs s with
  | nil => simpa using h
  | cons v l ih =>
    obtain ⟨-, h1⟩ := h.snoc (.variable (x v) v) rfl
    obtain ⟨⟨Q, d, e1, e2⟩, e3⟩ := hl v (by simp)
    simp only [SState.step, e1, e2, e3] at h1
    have h2 := ih h1 (fun u hu => by
      obtain ⟨⟨Q, d, e1, e2⟩, e3⟩ := hl u (by simp [hu])
      exact ⟨⟨Q, d, sevalUnc_append e1, e2⟩, e3⟩)
    simpa using h2

/-- Value of a dictionary of derivatives. -/
theorem sevalItems_filter {env : List (Option (SVal F))} (L : List (Arg F × VarId))
    (hL : ∀ p ∈ L, ∃ Q : SQ F, p.1.sevalUnc env = some Q ∧ Q.var = some p.2) (c : VarId → Option F) :
    evalArgs (Arg.sevalItem env) (L.filterMap fun p => (c p.2).map fun x => (p.1, x)) =
      some (L.filterMap fun p => (c p.2).map fun x => (p.2, x)) := by
  induction L with
  | nil => rfl
  | cons p L ih =>
    have ih := ih (fun p hp => hL p (by simp [hp]))
    obtain ⟨Q, e1, e2⟩ := hL p (by simp)
    cases hc : c p.2 with
    | none => simpa [List.filterMap_cons, hc] using ih
    | some x =>
      simp only [List.filterMap_cons, hc, Option.map_some, evalArgs]
      have : Arg.sevalItem env (p.1, x) = some (p.2, x) := by simp [Arg.sevalItem, e1, e2]
      rw [this, ih]

/-- Keys of a dictionary of derivatives. -/
theorem filterItems_keys (L : List (Arg F × VarId)) (hL : (L.map Prod.snd).Nodup) (c : VarId → Option F) :
    ((L.filterMap fun p => (c p.2).map fun x => (p.2, x)).map Prod.fst).Nodup := by
  have : (L.filterMap fun p => (c p.2).map fun x => (p.2, x)).map Prod.fst =
      (L.map Prod.snd).filter (fun v => (c v).isSome) := by
    induction L with
    | nil => rfl
    | cons p L ih =>
      simp only [List.map_cons, List.nodup_cons] at hL
      cases hc : c p.2 <;> simp [hc, ih hL.2]
  rw [this]
  exact hL.filter _

theorem filterItems_lookup (L : List (Arg F × VarId)) (c : VarId → Option F) (v : VarId) :
    (L.filterMap fun p => (c p.2).map fun x => (p.2, x)).lookup v =
      if v ∈ L.map Prod.snd then c v else none := by
  induction L with
  | nil => simp
  | cons p L ih =>
    cases hc : c p.2 with
    | none =>
      simp only [List.filterMap_cons, hc, Option.map_none, ih, List.map_cons, List.mem_cons]
      by_cases hv : v = p.2
      · subst hv; simp [hc]
      · have hv' : (v == p.2) = false := by simpa using hv
        simp only [hv', hv, false_or]
    | some x =>
      simp only [List.filterMap_cons, hc, Option.map_some, List.lookup_cons, ih, List.map_cons, List.mem_cons]
      by_cases hv : v = p.2
      · subst hv; simp [hc]
      · have hv' : (v == p.2) = false := by simpa using hv
        simp only [hv', hv, false_or]

/-- The array depends on the variable. -/
def DependsOn (S : Fin p → Fin q → Option (Lin F)) (v : VarId) : Prop := ∃ i j, gradOf (S i j) v ≠ none

open Classical in
/-- The derivatives of an element of the result of a function of an array, given the derivatives
`dV v` of the result: no derivatives (number without uncertainty) if the array has no variables;
otherwise, the non-null derivatives with respect to the variables of the array. -/
noncomputable def resultGrad (S : Fin p → Fin q → Option (Lin F)) (dV : VarId → F) : Option (Lin F) :=
  if ∃ v, DependsOn S v then
    some fun v => if DependsOn S v ∧ PyFloat.truthy (dV v) = true then some (dV v) else none
  else none

theorem DictOf.lookup {g : NodeId → Lin F} {v : Val F} {d : Derivs F} (h : DictOf g v d) {n : PyVal F}
    {S : Option (Lin F)} (hs : (v.abs g).seen = (n, S)) (u : VarId) : d.lookup u = gradOf S u := by
  obtain ⟨-, h⟩ := h
  cases v with
  | unc x =>
    simp only [Val.abs, SVal.seen, UF.abs, Prod.mk.injEq] at hs
    obtain ⟨-, rfl⟩ := hs
    rw [gradOf, Option.bind_some, ← h]; rfl
  | plain x =>
    simp only [Val.abs, SVal.seen, Prod.mk.injEq] at hs
    obtain ⟨-, rfl⟩ := hs
    rw [h]; rfl

theorem arrayFunc_main {cs : List (Cmd F)} {s : SState F} (hs : Reaches cs s) {m n : ℕ}
    {A : Fin p → Fin q → Arg F} {N : Fin p → Fin q → F} {S : Fin p → Fin q → Option (Lin F)}
    (hA : ∀ i j, SeenAs cs (A i j) (.flt (N i j), S i j))
    {ord : List VarId → List VarId} (hord : ∀ l, (ord l).Perm l)
    {func : DerivArrayFn F} {V : Fin m → Fin n → F} {dV : VarId → Fin m → Fin n → F}
    {deriv : VarId → List (List F) → PyRes (List (List F))}
    (hf : func (arr N) = .ok (arr V, deriv))
    (hd : ∀ v, DependsOn S v → deriv v (arr fun i j => (gradOf (S i j) v).getD 0) = .ok (arr (dV v))) :
    ∃ (cmds : List (Cmd F)) (x : Fin m → Fin n → Arg F) (l : List (Option (SVal F))),
      arrayFunc ord func (after cs) (arr A) = .ok (cmds, arr x) ∧
      Reaches (cs ++ cmds) { s with env := s.env ++ l } ∧
      ∀ i j, ∃ r : SVal F, (x i j).seval (s.env ++ l) = some r ∧
        r.seen = (.flt (V i j), resultGrad S (fun v => dV v i j)) := by
  obtain ⟨-, g, hr⟩ := id hs
  have hex : ∀ i j, ∃ v : Val F, (A i j).eval (after cs).env = some v ∧ v.OK (after cs).w ∧
      (v.abs g).seen = (.flt (N i j), S i j) := by
    intro i j
    obtain ⟨sv, h1, h2⟩ := hs.seen (hA i j)
    rw [hr.eval] at h1
    cases hv : (A i j).eval (after cs).env with
    | none => simp [hv] at h1
    | some v =>
      rw [hv] at h1
      simp only [Option.map_some, Option.some.injEq] at h1
      exact ⟨v, rfl, hr.eval_ok hv, by rw [h1]; exact h2⟩
  choose vals hev hok hseen using hex
  obtain ⟨w', d, hread, -, hdict⟩ := World.readArray_spec hr.inv hok
  have hlook : ∀ i j u, (d i j).lookup u = gradOf (S i j) u := fun i j u => (hdict i j).lookup (hseen i j) u
  -- the variables
  obtain ⟨varSet, hvs⟩ : ∃ l, l = ord (((arr d).flatten.flatMap fun d => d.map Prod.fst).dedup) := ⟨_, rfl⟩
  have hnod : varSet.Nodup := by rw [hvs]; exact (hord _).nodup_iff.mpr (List.nodup_dedup _)
  have hmem : ∀ v, v ∈ varSet ↔ DependsOn S v := by
    intro v
    rw [hvs, (hord _).mem_iff, List.mem_dedup, List.mem_flatMap]
    constructor
    · rintro ⟨e, he, hv⟩
      obtain ⟨i, j, rfl⟩ := (mem_flatten_arr d e).mp he
      refine ⟨i, j, ?_⟩
      rw [← hlook]
      obtain ⟨⟨v', x⟩, h1, rfl⟩ := List.mem_map.mp hv
      rw [lookup_of_mem_nodup (hdict i j).1 h1]
      simp
    · rintro ⟨i, j, h⟩
      refine ⟨d i j, (mem_flatten_arr d _).mpr ⟨i, j, rfl⟩, ?_⟩
      rw [← hlook] at h
      obtain ⟨x, hx⟩ := Option.ne_none_iff_exists'.mp h
      exact mem_keys_of_lookup hx
  have hnom : nominalValues (arr vals) = .ok (arr N) := by
    apply nominalValues_arr
    intro i j
    have := hseen i j
    cases hv : vals i j with
    | unc u =>
      rw [hv] at this
      simp only [Val.abs, SVal.seen, UF.abs, Prod.mk.injEq, PyVal.flt.injEq] at this
      simp only [Val.floatNominal, this.1]
    | plain x =>
      rw [hv] at this
      simp only [Val.abs, SVal.seen, Prod.mk.injEq] at this
      rw [this.1]; rfl
  have hreads : ∀ c ∈ (arr A).flatten.map Cmd.derivatives, c.isRead = true := by
    intro c hc
    obtain ⟨x, -, rfl⟩ := List.mem_map.mp hc
    rfl
  have hs1 := hs.reads hreads
  unfold arrayFunc
  rw [evalArray_arr hev]
  simp only [hread, hnom, hf, ← hvs]
  by_cases he : varSet = []
  · -- no variables
    have hno : ¬ ∃ v, DependsOn S v := by
      rintro ⟨v, hv⟩
      rw [← hmem, he] at hv
      cases hv
    refine ⟨(arr A).flatten.map Cmd.derivatives, fun i j => .const (.flt (V i j)), [], ?_, by simpa using hs1, ?_⟩
    · simp only [he, List.isEmpty_nil, if_true]
      rw [map_arr]
    · intro i j
      refine ⟨.plain (.flt (V i j)), rfl, ?_⟩
      simp only [SVal.seen, resultGrad, if_neg hno]
  · have hyes : ∃ v, DependsOn S v := by
      obtain ⟨v, hv⟩ := List.exists_mem_of_ne_nil _ he
      exact ⟨v, (hmem v).mp hv⟩
    have hder : mapRes' (fun v => deriv v (arrayDerivative (arr d) v)) varSet =
        .ok (varSet.map fun v => arr (dV v)) := by
      apply mapRes'_map
      intro v hv
      rw [← hd v ((hmem v).mp hv)]
      congr 1
      unfold arrayDerivative
      rw [map_arr]
      simp only [hlook]
    have hif : varSet.isEmpty = false := by simpa using he
    rw [hif]
    simp only [hder, Bool.false_eq_true, if_false]
    -- references to the variables
    have hcar : ∀ v ∈ varSet, (∃ Q d', (carrier ((arr A).flatten.zip (arr d).flatten) v).sevalUnc s.env = some Q ∧
        Q.grad v = some d') := by
      intro v hv
      obtain ⟨i, j, hij⟩ := (hmem v).mp hv
      rw [zip_flatten_arr]
      unfold carrier
      cases hf : (arr fun (i : Fin p) (j : Fin q) => (A i j, d i j)).flatten.find? fun p => (p.2.lookup v).isSome with
      | none =>
        rw [List.find?_eq_none] at hf
        have := hf (A i j, d i j) ((mem_flatten_arr _ _).mpr ⟨i, j, rfl⟩)
        simp only [hlook] at this
        simp [Option.isSome_iff_ne_none, hij] at this
      | some e =>
        have h1 := List.mem_of_find?_eq_some hf
        have h2 := List.find?_some hf
        obtain ⟨i, j, rfl⟩ := (mem_flatten_arr _ _).mp h1
        simp only [hlook] at h2
        obtain ⟨x, hx⟩ := Option.isSome_iff_exists.mp h2
        simp only [Option.map_some, Option.getD_some]
        have h3 := hseen i j
        cases hv : vals i j with
        | plain y =>
          rw [hv] at h3
          simp only [Val.abs, SVal.seen, Prod.mk.injEq] at h3
          rw [← h3.2] at hx
          simp [gradOf] at hx
        | unc u =>
          rw [hv] at h3
          simp only [Val.abs, SVal.seen, Prod.mk.injEq] at h3
          refine ⟨u.abs g, x, ?_, ?_⟩
          · simp only [Arg.sevalUnc, hr.eval, hev, hv, Option.map_some, Val.abs]
          · rw [← h3.2] at hx
            simpa [gradOf] using hx
    have hcell : ∀ v ∈ varSet, s.vars[v]? = some ((s.vars[v]?).getD ⟨0, 0, none⟩) := by
      intro v hv
      obtain ⟨Q, d', h1, h2⟩ := hcar v hv
      have := hs.wf.keys Q (sevalUnc_mem h1) v d' h2
      rw [List.getElem?_eq_getElem this]
      rfl
    have hs2 := hs1.variables varSet (carrier ((arr A).flatten.zip (arr d).flatten))
      (fun v => (s.vars[v]?).getD ⟨0, 0, none⟩) (fun v hv => ⟨hcar v hv, hcell v hv⟩)
    -- results
    obtain ⟨L, hLdef⟩ : ∃ L : List (Arg F × VarId),
      L = ((List.range varSet.length).map fun k => Arg.ref ((after cs).env.length + k)).zip varSet := ⟨_, rfl⟩
    have hLsnd : L.map Prod.snd = varSet := by
      rw [hLdef, List.map_snd_zip (by simp)]
    have hL : ∀ p ∈ L, ∃ Q : SQ F, p.1.sevalUnc (s.env ++ varSet.map fun v =>
        some (.unc ⟨((s.vars[v]?).getD ⟨0, 0, none⟩).nom, Lin.single v, some v⟩)) = some Q ∧
        Q.var = some p.2 := by
      intro p hp
      obtain ⟨k, hk, rfl⟩ := List.mem_iff_getElem.mp hp
      have hk' : k < varSet.length := by rw [← hLsnd]; simpa using hk
      refine ⟨⟨((s.vars[varSet[k]]?).getD ⟨0, 0, none⟩).nom, Lin.single varSet[k], some varSet[k]⟩, ?_, ?_⟩
      · simp only [hLdef, List.getElem_zip, List.getElem_map, List.getElem_range, ← hs.env_length, Arg.sevalUnc,
          Arg.seval]
        rw [List.getElem?_append_right (by omega)]
        simp [hk']
      · simp only [hLdef, List.getElem_zip]
    let c : Fin m → Fin n → VarId → Option F := fun i j v =>
      if PyFloat.truthy (dV v i j) = true then some (dV v i j) else none
    have hitems : ∀ i j, elementItems (((List.range varSet.length).map fun k =>
        Arg.ref ((after cs).env.length + k)).zip (varSet.map fun v => arr (dV v))) i.val j.val =
        L.filterMap fun p => (c i j p.2).map fun x => (p.1, x) := by
      intro i j
      unfold elementItems
      rw [List.zip_map_right, ← hLdef, List.filterMap_map]
      congr 1
      funext p
      simp only [Function.comp_apply, Prod.map_snd, Prod.map_fst, id, get_arr, c]
      split_ifs <;> rfl
    have hs3 := hs2.affines (arr fun i j => (V i j, L.filterMap fun p => (c i j p.2).map fun x => (p.1, x),
        L.filterMap fun p => (c i j p.2).map fun x => (p.2, x))).flatten (by
      intro e he
      obtain ⟨i, j, rfl⟩ := (mem_flatten_arr _ _).mp he
      exact ⟨sevalItems_filter L hL (c i j), filterItems_keys L (by rw [hLsnd]; exact hnod) _⟩)
    rw [flatten_map_arr _ (fun p : F × List (Arg F × F) × Derivs F => Cmd.affine p.1 p.2.1),
      flatten_map_arr _ (fun p : F × List (Arg F × F) × Derivs F =>
        some (SVal.unc ⟨p.1, Lin.ofDict p.2.2, none⟩))] at hs3
    simp only [List.append_assoc] at hs3
    refine ⟨_, fun i j => .ref ((after cs).env.length + varSet.length + (i.val * n + j.val)), _, ?_, hs3, ?_⟩
    · rw [mapIdx_arr, number_arr]
      simp only [hitems, List.append_assoc]
    · intro i j
      refine ⟨.unc ⟨V i j, Lin.ofDict (L.filterMap fun p => (c i j p.2).map fun x => (p.2, x)), none⟩, ?_, ?_⟩
      · simp only [Arg.seval, ← hs.env_length]
        rw [List.getElem?_append_right (by omega), List.getElem?_append_right (by simp; omega)]
        simp only [List.length_map]
        have e : s.env.length + varSet.length + (i.val * n + j.val) - s.env.length - varSet.length =
          i.val * n + j.val := by omega
        rw [e, flatten_arr]
        rfl
      · simp only [SVal.seen, resultGrad, if_pos hyes, Prod.mk.injEq, true_and, Option.some.injEq]
        funext v
        unfold Lin.ofDict
        rw [filterItems_lookup, hLsnd]
        by_cases h1 : DependsOn S v
        · rw [if_pos ((hmem v).mpr h1)]
          by_cases h2 : PyFloat.truthy (dV v i j) = true
          · rw [if_pos ⟨h1, h2⟩]; exact if_pos h2
          · rw [if_neg (fun h => h2 h.2)]; exact if_neg h2
        · rw [if_neg (fun h => h1 ((hmem v).mp h)), if_neg (fun h => h1 h.1)]

end generic

end Unc
