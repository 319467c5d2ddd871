import Verif.Lemmas.RoundingWorld
import Verif.Lemmas.SameWraps
import Verif.Spec.ReadOnce

/-
Calls whose arguments have derivatives that were calculated already: the derivatives of the result
are sums with one term for each argument.
-/

namespace Unc

set_option autoImplicit false

section heap
variable {F : Type} [PyFloat F]

/-- The dictionary of an object whose derivatives were calculated. -/
def dictAt (h : Heap F) (j : NodeId) : Derivs F :=
  match h[j]? with
  | some (.dict d) => d
  | _ => []

/-- The terms are added, in order. -/
def applyItems (h : Heap F) : List (Item F) → Derivs F → Derivs F
  | [], d => d
  | .junk :: ts, d => applyItems h ts d
  | .pair c j :: ts, d => applyItems h ts (addScaled c (dictAt h j) d)

/-- All the terms have calculated derivatives. -/
def ItemsRead (h : Heap F) (ts : List (Item F)) : Prop :=
  ∀ t ∈ ts, ∃ c j d, t = .pair c j ∧ h[j]? = some (.dict d)

theorem applyItems_congr {h h' : Heap F} (ts : List (Item F)) (d : Derivs F)
    (he : ∀ c j, Item.pair c j ∈ ts → h'[j]? = h[j]?) : applyItems h' ts d = applyItems h ts d := by
  induction ts generalizing d with
  | nil => rfl
  | cons t ts ih =>
    cases t with
    | junk => exact ih _ (fun c j hj => he c j (by simp [hj]))
    | pair c j =>
      simp only [applyItems, dictAt, he c j (by simp)]
      exact ih _ (fun c j hj => he c j (by simp [hj]))

theorem applyItems_snoc (h : Heap F) (ts : List (Item F)) (c : F) (j : NodeId) (d : Derivs F) :
    applyItems h (ts ++ [.pair c j]) d = addScaled c (dictAt h j) (applyItems h ts d) := by
  induction ts generalizing d with
  | nil => rfl
  | cons t ts ih =>
    cases t with
    | junk => exact ih _
    | pair c j => exact ih _

theorem expandLoop_dicts (fuel : Nat) (h : Heap F) (i : NodeId) (ts : List (Item F)) (d : Derivs F)
    (hi : h[i]? = some (.terms ts)) (hts : ItemsRead h ts) (hf : ts.length < fuel) :
    expandLoop fuel h i d = (h.set i (.dict (applyItems h ts d)), .ok ()) := by
  have hlt := (List.getElem?_eq_some_iff.mp hi).1
  induction ts generalizing fuel h d with
  | nil =>
    obtain ⟨n, rfl⟩ : ∃ n, fuel = n + 1 := ⟨fuel - 1, by simp at hf; omega⟩
    simp only [expandLoop, expandStep, hi, applyItems]
  | cons t ts ih =>
    obtain ⟨n, rfl⟩ : ∃ n, fuel = n + 1 := ⟨fuel - 1, by simp at hf; omega⟩
    obtain ⟨c, j, dj, rfl, hj⟩ := hts t (by simp)
    have hne : i ≠ j := by
      rintro rfl
      rw [hi] at hj; cases hj
    have hj' : (h.set i (.terms ts))[j]? = some (.dict dj) := by rw [List.getElem?_set_ne hne]; exact hj
    have hts' : ItemsRead (h.set i (.terms ts)) ts := by
      intro t ht
      obtain ⟨c', k, dk, rfl, hk⟩ := hts t (by simp [ht])
      refine ⟨c', k, dk, rfl, ?_⟩
      have hne' : i ≠ k := by
        rintro rfl
        rw [hi] at hk; cases hk
      rw [List.getElem?_set_ne hne']; exact hk
    simp only [expandLoop, expandStep, hi, hj']
    rw [ih n _ (addScaled c dj d) (List.getElem?_set_self hlt) hts' (by simp at hf; omega)
      (by simpa using hlt), List.set_set]
    congr 3
    have e : dictAt h j = dj := by simp [dictAt, hj]
    rw [applyItems, e]
    refine applyItems_congr _ _ (fun c' k hk => ?_)
    obtain ⟨c'', k', dk, he, hk'⟩ := hts _ (by simp [hk] : Item.pair c' k ∈ Item.pair c j :: ts)
    cases he
    refine List.getElem?_set_ne ?_
    rintro rfl
    rw [hi] at hk'; cases hk'

theorem length_le_itemsCost (cs : List Nat) (ts : List (Item F)) : ts.length ≤ itemsCost cs ts := by
  induction ts with
  | nil => simp
  | cons t ts ih => cases t <;> simp only [itemsCost, List.length_cons] <;> omega

theorem readDerivs_append (h : Heap F) (ts : List (Item F)) (hts : ItemsRead h ts) :
    readDerivs (h ++ [LC.terms ts]) h.length =
      ((h ++ [LC.terms ts]).set h.length (.dict (applyItems h ts [])), .ok (applyItems h ts [])) := by
  have hi : (h ++ [LC.terms ts])[h.length]? = some (.terms ts) := by simp
  have hlt : ∀ {j : NodeId} {d : Derivs F}, h[j]? = some (.dict d) → (h ++ [LC.terms ts])[j]? = some (.dict d) := by
    intro j d hj
    rw [List.getElem?_append_left (List.getElem?_eq_some_iff.mp hj).1]; exact hj
  have hr : ItemsRead (h ++ [LC.terms ts]) ts := by
    intro t ht
    obtain ⟨c, j, d, rfl, hj⟩ := hts t ht
    exact ⟨c, j, d, rfl, hlt hj⟩
  have hf : ts.length < fuelFor (h ++ [LC.terms ts]) h.length := by
    have e : ((costs (h ++ [LC.terms ts]))[h.length]?).getD 0 = itemsCost (costs h) ts := by
      rw [costs_append, List.getElem?_append_right (by rw [length_costs])]
      simp [length_costs, nodeCost]
    have := length_le_itemsCost (costs h) ts
    simp only [fuelFor, e]; omega
  have he : applyItems (h ++ [LC.terms ts]) ts [] = applyItems h ts [] := by
    refine applyItems_congr _ _ (fun c j hj => ?_)
    obtain ⟨c', j', d, e, hj'⟩ := hts _ hj
    cases e
    rw [hj']; exact hlt hj'
  have hx := expandLoop_dicts _ _ _ ts [] hi hr hf
  rw [he] at hx
  simp only [readDerivs, hi, expand, hx]
  rw [List.getElem?_set_self (by simp)]

end heap

section calls
variable {F : Type} [PyFloat F]

/-- The derivatives of an argument were calculated. -/
def ReadOnce (w : World F) : Val F → (VarId → Option F) → Prop
  | .plain _, D => ∀ v, D v = none
  | .unc u, D => ∃ d, w.nodes[u.lin]? = some (.dict d) ∧ KeysNodup d ∧ ∀ v, d.lookup v = D v

theorem posSpec_chain [Rounded F] {w : World F} {df : WrapDef F} {av : List (PyVal F)} {c : Nat → F} {args : List (Val F)}
    {Ds : List (VarId → Option F)} (hr : List.Forall₂ (ReadOnce w) args Ds) (k : Nat)
    (hc : ∀ i u, args[i]? = some (.unc u) → df.specPos (k + i) av [] = .ok (c (k + i))) (acc : List (Item F)) :
    ∃ its, posSpec df av [] k args acc = .ok (its ++ acc) ∧ ItemsRead w.nodes its ∧
      ∀ v, (applyItems w.nodes its []).lookup v = chainRule c k Ds v := by
  induction hr generalizing k acc with
  | nil => exact ⟨[], rfl, by simp [ItemsRead], fun v => rfl⟩
  | @cons a D args Ds ha hr ih =>
    have hc' : ∀ i u, args[i]? = some (.unc u) → df.specPos (k + 1 + i) av [] = .ok (c (k + 1 + i)) := by
      intro i u hi
      have := hc (i + 1) u (by simpa using hi)
      rwa [show k + (i + 1) = k + 1 + i by omega] at this
    cases a with
    | plain p =>
      obtain ⟨its, h1, h2, h3⟩ := ih (k + 1) hc' acc
      refine ⟨its, h1, h2, fun v => ?_⟩
      simp only [chainRule, ha v]
      exact h3 v
    | unc u =>
      obtain ⟨d, d1, d2, d3⟩ := ha
      obtain ⟨its, h1, h2, h3⟩ := ih (k + 1) hc' (.pair (c k) u.lin :: acc)
      refine ⟨its ++ [.pair (c k) u.lin], ?_, ?_, fun v => ?_⟩
      · simp only [posSpec, show df.specPos k av [] = .ok (c k) from hc 0 u rfl, h1]
        simp
      · intro t ht
        rcases List.mem_append.mp ht with ht | ht
        · exact h2 t ht
        · simp only [List.mem_singleton] at ht
          exact ⟨_, _, d, ht, d1⟩
      · rw [applyItems_snoc, show dictAt w.nodes u.lin = d by simp [dictAt, d1]]
        rw [lookup_addScaled _ _ _ d2, d3, h3]
        rfl

/-- A call with arguments whose derivatives were calculated. -/
theorem World.call_read [Rounded F] {w : World F} (h : Shape w) {fid : Nat} {df : WrapDef F}
    (hdf : (w.wraps[fid]?).map Wrapped.df = some df) {args : List (Val F)} {Ds : List (VarId → Option F)}
    (hr : List.Forall₂ (ReadOnce w) args Ds) (hu : ∃ u, Val.unc u ∈ args) {z : F}
    (hz : df.f (args.map Val.nominal) [] = .ok (.flt z)) {c : Nat → F}
    (hc : ∀ i u, args[i]? = some (.unc u) → df.specPos i (args.map Val.nominal) [] = .ok (c i)) :
    ∃ w' u w'' d, w.call fid args [] = (w', .ok (.unc u)) ∧ u.nom = z ∧ u.var = none ∧ w'.vars = w.vars ∧
      w'.derivatives u = (w'', .ok d) ∧ w''.vars = w.vars ∧ ∀ v, d.lookup v = chainRule c 0 Ds v := by
  obtain ⟨wf, hg, hwf⟩ := Option.map_eq_some_iff.mp hdf
  obtain ⟨its, h1, h2, h3⟩ := posSpec_chain (df := df) (av := args.map Val.nominal) hr 0 (by simpa using hc) []
  obtain ⟨wf', k1, k2, k3⟩ := callTerms_callSpec wf (h.wraps fid wf hg) args []
  have hall : (args.all fun a => !a.isUnc) = false := by
    obtain ⟨u, hu⟩ := hu
    rw [List.all_eq_false]
    exact ⟨_, hu, by simp [Val.isUnc]⟩
  have hspec : callSpec df args [] = .ok (.inr (z, its)) := by
    simp only [callSpec, List.map_nil, hz, hall, Bool.false_and, PyVal.floatLike, posEnd, h1, List.append_nil, kwEnd,
      kwSpec, PyVal.toFloat]
    simp
  rw [hwf, hspec] at k1
  have hrd := readDerivs_append w.nodes its h2
  refine ⟨{ nodes := w.nodes ++ [LC.terms its], vars := w.vars, wraps := w.wraps.set fid wf' },
    { nom := z, lin := w.nodes.length, var := none },
    { nodes := (w.nodes ++ [LC.terms its]).set w.nodes.length (LC.dict (applyItems w.nodes its [])), vars := w.vars,
      wraps := w.wraps.set fid wf' }, applyItems w.nodes its [], by simp only [World.call, hg, k1, World.alloc], rfl, rfl, rfl,
    by simp only [World.derivatives, hrd], rfl, h3⟩

end calls

end Unc
