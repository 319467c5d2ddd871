import Verif.Lemmas.Matrices
import Verif.Props.C05_StdDev
import Verif.Py.ZN

/-
C52: creation of arrays, and access to their nominal values and standard deviations.
-/

namespace Unc

set_option autoImplicit false

variable {F : Type} [PyMath F] [ExactLin F] {p q : ℕ}

theorem Reaches.val_of_nominal {cs : List (Cmd F)} {s : SState F} (h : Reaches cs s) {x : Arg F} {o : PyVal F}
    (hx : sees cs (.nominal x) = .val o) : ∃ sv, x.seval s.env = some sv ∧ sv.nominal = o := by
  rw [(h.read (c := .nominal x) rfl).1] at hx
  cases hv : x.seval s.env with
  | none => simp [SState.step, hv, SState.invalid] at hx
  | some sv => exact ⟨sv, rfl, by simpa [SState.step, hv] using hx⟩

theorem Reaches.val_of_stdDev {cs : List (Cmd F)} {s : SState F} (h : Reaches cs s) {x : Arg F} {o : PyVal F}
    (hx : sees cs (.stdDev x) = .val o) : ∃ sv, x.seval s.env = some sv := by
  rw [(h.read (c := .stdDev x) rfl).1] at hx
  cases hv : x.seval s.env with
  | none => simp [SState.step, hv, SState.invalid] at hx
  | some sv => exact ⟨sv, rfl⟩

/-- Standard deviation of a value. -/
def stdOfSVal (vars : List (SVar F)) : SVal F → PyRes F
  | .unc Q => specStdDev vars Q
  | .plain _ => .ok 0

/-- Reading the standard deviation of values. -/
theorem World.stdDevOf_spec {w : World F} {g : NodeId → Lin F} (h : Inv w g) {v : Val F} (hv : v.OK w) {σ : F}
    (hσ : stdOfSVal w.svars (v.abs g) = .ok σ) :
    ∃ w', w.stdDevOf v = (w', .ok σ) ∧ Evolves w g w' g := by
  cases v with
  | plain x => exact ⟨w, by simp only [Val.abs, stdOfSVal] at hσ; simp only [World.stdDevOf, hσ], Evolves.refl h⟩
  | unc u =>
    obtain ⟨w', h1, h2⟩ := World.stdDev_spec h hv
    exact ⟨w', by simp only [Val.abs, stdOfSVal] at hσ; simp only [World.stdDevOf, h1, hσ], h2⟩

theorem Evolves.svars {w w' : World F} {g g' : NodeId → Lin F} (h : Evolves w g w' g') : w'.svars = w.svars := by
  simp [World.svars, h.vars]

theorem World.stdDevList_spec {w : World F} {g : NodeId → Lin F} (h : Inv w g) {n : ℕ} {v : Fin n → Val F}
    (hv : ∀ i, (v i).OK w) {σ : Fin n → F} (hσ : ∀ i, stdOfSVal w.svars ((v i).abs g) = .ok (σ i)) :
    ∃ w', w.stdDevList (List.ofFn v) = (w', .ok (List.ofFn σ)) ∧ Evolves w g w' g := by
  induction n generalizing w with
  | zero => exact ⟨w, by simp [World.stdDevList], Evolves.refl h⟩
  | succ n ih =>
    obtain ⟨w1, a1, a2⟩ := World.stdDevOf_spec h (hv 0) (hσ 0)
    obtain ⟨w', h1, h2⟩ := ih a2.inv (v := fun i => v i.succ) (fun i => Val.OK.evolves' a2.weaken (hv i.succ))
      (σ := fun i => σ i.succ) (fun i => by rw [a2.svars]; exact hσ i.succ)
    exact ⟨w', by simp only [List.ofFn_succ, World.stdDevList, a1, h1], a2.trans h2⟩

theorem World.stdDevs_spec {w : World F} {g : NodeId → Lin F} (h : Inv w g) {v : Fin p → Fin q → Val F}
    (hv : ∀ i j, (v i j).OK w) {σ : Fin p → Fin q → F} (hσ : ∀ i j, stdOfSVal w.svars ((v i j).abs g) = .ok (σ i j)) :
    ∃ w', w.stdDevs (arr v) = (w', .ok (arr σ)) ∧ Evolves w g w' g := by
  unfold arr
  induction p generalizing w with
  | zero => exact ⟨w, by simp [World.stdDevs], Evolves.refl h⟩
  | succ n ih =>
    obtain ⟨w1, a1, a2⟩ := World.stdDevList_spec h (hv 0) (hσ 0)
    obtain ⟨w', h1, h2⟩ := ih a2.inv (v := fun i => v i.succ) (fun i j => Val.OK.evolves' a2.weaken (hv i.succ j))
      (σ := fun i => σ i.succ) (fun i j => by rw [a2.svars]; exact hσ i.succ j)
    exact ⟨w', by simp only [List.ofFn_succ, World.stdDevs, a1, h1], a2.trans h2⟩

theorem Reaches.vals {cs : List (Cmd F)} {s : SState F} {g : NodeId → Lin F} (hr : Rel g (after cs) s)
    {A : Fin p → Fin q → Arg F} {sv : Fin p → Fin q → SVal F} (hA : ∀ i j, (A i j).seval s.env = some (sv i j)) :
    ∃ vals : Fin p → Fin q → Val F, evalArray (after cs).env (arr A) = some (arr vals) ∧
      (∀ i j, (vals i j).OK (after cs).w) ∧ ∀ i j, (vals i j).abs g = sv i j := by
  have hex : ∀ i j, ∃ v : Val F, (A i j).eval (after cs).env = some v ∧ v.OK (after cs).w ∧ v.abs g = sv i j := by
    intro i j
    have h1 := hA i j
    rw [hr.eval] at h1
    cases hv : (A i j).eval (after cs).env with
    | none => simp [hv] at h1
    | some v =>
      rw [hv] at h1
      simp only [Option.map_some, Option.some.injEq] at h1
      exact ⟨v, rfl, hr.eval_ok hv, h1⟩
  choose vals hev hok hab using hex
  exact ⟨vals, evalArray_arr hev, hok, hab⟩

/-- **C52**: after any history, for any array of numbers with uncertainties and of plain numbers, of any
shape, `nominal_values()` is the array, with the same shape, of the nominal values of the elements (the
element itself for plain numbers). -/
theorem C52_nominal_values (cs : List (Cmd F)) {A : Fin p → Fin q → Arg F} {N : Fin p → Fin q → F}
    (hA : ∀ i j, sees cs (.nominal (A i j)) = .val (.flt (N i j))) :
    (after cs).nominalValues (arr A) = .ok (arr N) := by
  obtain ⟨s, hs⟩ := Reaches.exists cs
  obtain ⟨-, g, hr⟩ := _root_.id hs
  choose sv h1 h2 using fun i j => hs.val_of_nominal (hA i j)
  obtain ⟨vals, e1, e2, e3⟩ := Reaches.vals hr h1
  simp only [Machine.nominalValues, e1]
  apply nominalValues_arr
  intro i j
  have := h2 i j
  rw [← e3 i j, Val.abs_nominal] at this
  cases hv : vals i j with
  | unc u => rw [hv] at this; simpa [Val.nominal, Val.floatNominal] using this
  | plain x => rw [hv] at this; simp only [Val.nominal] at this; rw [this]; rfl

/-- **C52**: `std_devs()` is the array, with the same shape, of the standard deviations of the elements (0
for plain numbers). -/
theorem C52_std_devs (cs : List (Cmd F)) {A : Fin p → Fin q → Arg F} {σ : Fin p → Fin q → F}
    (hA : ∀ i j, sees cs (.stdDev (A i j)) = .val (.flt (σ i j))) :
    ((after cs).stdDevs (arr A)).2 = .ok (arr σ) := by
  obtain ⟨s, hs⟩ := Reaches.exists cs
  obtain ⟨-, g, hr⟩ := _root_.id hs
  choose sv h1 using fun i j => hs.val_of_stdDev (hA i j)
  obtain ⟨vals, e1, e2, e3⟩ := Reaches.vals hr h1
  have hσ : ∀ i j, stdOfSVal (after cs).w.svars ((vals i j).abs g) = .ok (σ i j) := by
    intro i j
    have := hA i j
    rw [(hs.read (c := .stdDev (A i j)) rfl).1] at this
    rw [← hr.vars, e3 i j]
    cases hv : sv i j with
    | plain x =>
      simp only [SState.step, h1 i j, hv, Out.val.injEq, PyVal.flt.injEq] at this
      simp only [stdOfSVal, this]
    | unc Q =>
      simp only [SState.step, h1 i j, hv] at this
      simp only [stdOfSVal]
      cases hx : specStdDev s.vars Q with
      | error e => simp [hx, PyRes.out] at this
      | ok y => simp only [hx, PyRes.out, Out.val.injEq, PyVal.flt.injEq] at this; rw [this]
  obtain ⟨w', h3, -⟩ := World.stdDevs_spec hr.inv e2 hσ
  simp only [Machine.stdDevs, e1, h3]

/-- Elements of an array which are plain numbers: nominal value and standard deviation. -/
theorem C52_plain_element (cs : List (Cmd F)) (x : F) :
    sees cs (.nominal (.const (.flt x))) = .val (.flt x) ∧ sees cs (.stdDev (.const (.flt x))) = .val (.flt 0) := by
  obtain ⟨s, hs⟩ := Reaches.exists cs
  rw [(hs.read (c := .nominal (.const (.flt x))) rfl).1, (hs.read (c := .stdDev (.const (.flt x))) rfl).1]
  exact ⟨rfl, rfl⟩

/-- **C52**: `A = uarray(noms, stds)`, with non-negative standard deviations. `nominal_values(A)` and
`std_devs(A)` give back the arguments. The elements are independent variables: each one depends only
on itself, and nothing that existed before depends on it. -/
theorem C52_uarray (cs : List (Cmd F)) (noms stds : Fin p → Fin q → F)
    (hσ : ∀ i j, specBadStd (stds i j) = false) :
    ∃ (cmds : List (Cmd F)) (x : Fin p → Fin q → Arg F) (v : Fin p → Fin q → VarId),
      uarray (after cs).env.length (arr noms) (arr stds) = (cmds, arr x) ∧
      (after (cs ++ cmds)).nominalValues (arr x) = .ok (arr noms) ∧
      ((after (cs ++ cmds)).stdDevs (arr x)).2 = .ok (arr stds) ∧
      (∀ i j, sees (cs ++ cmds) (.derivatives (x i j)) = .dict (Lin.single (v i j))) ∧
      (∀ i j i' j', v i j = v i' j' → i = i' ∧ j = j') ∧
      ∀ i j y D, sees cs (.derivatives y) = .dict D → D (v i j) = none := by
  obtain ⟨s, hs⟩ := Reaches.exists cs
  have hz : List.zipWith List.zip (arr noms) (arr stds) = arr fun (i : Fin p) (j : Fin q) => (noms i j, stds i j) := by
    unfold arr
    rw [zipWith_ofFn]
    congr 1; funext i
    rw [zip_ofFn]
  set l : List (F × F × Option String) :=
    (arr fun (i : Fin p) (j : Fin q) => (noms i j, stds i j, (none : Option String))).flatten with hl
  have hcm : (arr fun (i : Fin p) (j : Fin q) => (noms i j, stds i j)).flatten.map
      (fun p => Cmd.ufloat p.1 p.2 none) = l.map fun p => .ufloat p.1 p.2.1 p.2.2 := by
    rw [hl, flatten_map_arr (fun i j => (noms i j, stds i j)) (fun p => Cmd.ufloat p.1 p.2 none),
      flatten_map_arr (fun i j => (noms i j, stds i j, (none : Option String)))
        (fun p => Cmd.ufloat p.1 p.2.1 p.2.2)]
  have hr := hs.ufloats l (by
    intro a ha
    obtain ⟨i, j, rfl⟩ := (mem_flatten_arr _ _).mp ha
    exact hσ i j)
  rw [← hcm] at hr
  have hget : ∀ i j, l[i.val * q + j.val]? = some (noms i j, stds i j, none) := fun i j =>
    flatten_arr (fun i j => (noms i j, stds i j, (none : Option String))) i j
  set v : Fin p → Fin q → VarId := fun i j => s.vars.length + (i.val * q + j.val) with hv
  set x : Fin p → Fin q → Arg F := fun i j => .ref ((after cs).env.length + (i.val * q + j.val)) with hx
  have hlen := hs.env_length
  have hsv : ∀ i j, (x i j).seval (s.env ++ l.mapIdx fun k p =>
      some (.unc ⟨p.1, Lin.single (s.vars.length + k), some (s.vars.length + k)⟩)) =
      some (.unc ⟨noms i j, Lin.single (v i j), some (v i j)⟩) := by
    intro i j
    simp only [hx, Arg.seval, ← hlen]
    rw [List.getElem?_append_right (by omega)]
    simp [hget, hv]
  have hvar : ∀ i j, (s.vars ++ l.map fun p => (⟨p.1, p.2.1, p.2.2⟩ : SVar F))[v i j]? =
      some ⟨noms i j, stds i j, none⟩ := by
    intro i j
    rw [List.getElem?_append_right (by simp [hv])]
    simp [hv, hget]
  refine ⟨_, x, v, by rw [uarray, hz, number_arr], C52_nominal_values _ fun i j => ?_,
    C52_std_devs _ fun i j => ?_, fun i j => ?_, ?_, ?_⟩
  · rw [(hr.read (c := .nominal (x i j)) rfl).1]
    simp only [SState.step, hsv i j]
    rfl
  · rw [(hr.read (c := .stdDev (x i j)) rfl).1]
    simp only [SState.step, hsv i j, specStdDev, hvar i j]
    rfl
  · rw [(hr.read (c := .derivatives (x i j)) rfl).1]
    simp only [SState.step, SState.read, Arg.sevalUnc, hsv i j]
  · intro i j i' j' h
    have h1 : i.val * q + j.val = i'.val * q + j'.val := by simpa [hv] using h
    have hq : 0 < q := j.pos
    have h2 : i.val = i'.val := by
      have := congrArg (· / q) h1
      simpa [Nat.mul_comm _ q, Nat.mul_add_div hq, Nat.div_eq_of_lt j.2, Nat.div_eq_of_lt j'.2] using this
    refine ⟨Fin.ext h2, Fin.ext ?_⟩
    rw [h2] at h1; omega
  · intro i j y D hD
    obtain ⟨Q, e1, rfl⟩ := hs.derivatives hD
    by_contra hne
    obtain ⟨d, hd⟩ := Option.ne_none_iff_exists'.mp hne
    have := hs.wf.keys Q (sevalUnc_mem e1) _ d hd
    simp [hv] at this

/-- An array of a sum of variables, a plain number, a variable: `x = ufloat(2, 3); y = ufloat(5, 4)`;
`nominal_values([[x+y, 7, x]])` and `std_devs([[x+y, 7, x]])`. -/
example :
    let cs : List (Cmd ZN) := [.ufloat (.fin 2) (.fin 3) none, .ufloat (.fin 5) (.fin 4) none,
      .binop .add (.ref 0) (.ref 1)]
    (after cs).nominalValues [[.ref 2, .const (.flt (.fin 7)), .ref 0]] = .ok [[.fin 7, .fin 7, .fin 2]] ∧
    ((after cs).stdDevs [[.ref 2, .const (.flt (.fin 7)), .ref 0]]).2 = .ok [[.fin 5, .fin 0, .fin 3]] := by
  decide +kernel

/-- `uarray([[1, 2], [3, 4]], [[0, 1], [2, 3]])` -/
example :
    let r := uarray (F := ZN) 0 [[.fin 1, .fin 2], [.fin 3, .fin 4]] [[.fin 0, .fin 1], [.fin 2, .fin 3]]
    (after r.1).nominalValues r.2 = .ok [[.fin 1, .fin 2], [.fin 3, .fin 4]] ∧
    ((after r.1).stdDevs r.2).2 = .ok [[.fin 0, .fin 1], [.fin 2, .fin 3]] := by
  decide +kernel

end Unc
