import Mathlib.Data.List.Induction
import Mathlib.Tactic.ByContra
import Mathlib.Order.Basic
import Mathlib.Order.Nat
import Verif.Spec.Lin

/-
Correctness of the lazy expansion of linear combinations: termination, and invariance of the
denoted linear form.
-/

namespace Unc

set_option linter.unusedSectionVars false

variable {F : Type} [PyFloat F]

/-! ### Algebra of linear forms -/

omit [PyFloat F] in
theorem lookup_cons (u v : VarId) (y : F) (d : Derivs F) :
    List.lookup v ((u, y) :: d) = if v = u then some y else List.lookup v d := by
  by_cases h : v = u
  · subst h; simp [List.lookup]
  · have : (v == u) = false := by simpa using h
    simp [List.lookup, this, h]

section exact
variable [ExactLin F]

theorem add_zero' (a : F) : a + 0 = a := by
  rw [ExactLin.add_comm, ExactLin.zero_add]

theorem optAdd_comm (a b : Option F) : optAdd a b = optAdd b a := by
  cases a <;> cases b <;> simp [optAdd, ExactLin.add_comm]

theorem optAdd_assoc (a b c : Option F) : optAdd (optAdd a b) c = optAdd a (optAdd b c) := by
  cases a <;> cases b <;> cases c <;> simp [optAdd, ExactLin.add_assoc]

omit [ExactLin F] in
@[simp] theorem optAdd_none (a : Option F) : optAdd a none = a := by cases a <;> rfl

omit [ExactLin F] in
@[simp] theorem none_optAdd (a : Option F) : optAdd none a = a := by cases a <;> rfl

theorem Lin.add_comm (a b : Lin F) : Lin.add a b = Lin.add b a := by
  funext v; exact optAdd_comm _ _

theorem Lin.add_assoc (a b c : Lin F) : Lin.add (Lin.add a b) c = Lin.add a (Lin.add b c) := by
  funext v; exact optAdd_assoc _ _ _

omit [ExactLin F] in
@[simp] theorem Lin.zero_add (a : Lin F) : Lin.add Lin.zero a = a := by
  funext v; simp [Lin.add, Lin.zero]

omit [ExactLin F] in
@[simp] theorem Lin.add_zero (a : Lin F) : Lin.add a Lin.zero = a := by
  funext v; simp [Lin.add, Lin.zero]

theorem Lin.smul_add (c : F) (a b : Lin F) :
    Lin.smul c (Lin.add a b) = Lin.add (Lin.smul c a) (Lin.smul c b) := by
  funext v
  simp only [Lin.smul, Lin.add]
  cases a v <;> cases b v <;> simp [optAdd, ExactLin.mul_add]

theorem Lin.smul_smul (c e : F) (a : Lin F) :
    Lin.smul c (Lin.smul e a) = Lin.smul (c * e) a := by
  funext v
  simp only [Lin.smul]
  cases a v <;> simp [ExactLin.mul_assoc]

omit [ExactLin F] in
@[simp] theorem Lin.smul_zero (c : F) : Lin.smul c (Lin.zero : Lin F) = Lin.zero := by
  funext v; simp [Lin.smul, Lin.zero]

theorem Lin.one_smul (a : Lin F) : Lin.smul 1 a = a := by
  funext v
  simp only [Lin.smul]
  cases a v <;> simp [ExactLin.one_mul]

end exact

/-! ### Dictionaries -/

/-- No variable appears twice in the dictionary. -/
def KeysNodup (d : Derivs F) : Prop := (d.map Prod.fst).Nodup

theorem mem_keys_addTo (d : Derivs F) (u : VarId) (x : F) (v : VarId) :
    v ∈ (addTo d u x).map Prod.fst ↔ v = u ∨ v ∈ d.map Prod.fst := by
  induction d with
  | nil => simp [addTo]
  | cons p d ih =>
    obtain ⟨w, y⟩ := p
    by_cases h : w = u
    · subst h; simp [addTo]
    · simp only [addTo, h, if_false, List.map_cons, List.mem_cons, ih]
      constructor
      · rintro (a | a | a)
        · exact Or.inr (Or.inl a)
        · exact Or.inl a
        · exact Or.inr (Or.inr a)
      · rintro (a | a | a)
        · exact Or.inr (Or.inl a)
        · exact Or.inl a
        · exact Or.inr (Or.inr a)

theorem keysNodup_addTo {d : Derivs F} (hd : KeysNodup d) (u : VarId) (x : F) :
    KeysNodup (addTo d u x) := by
  induction d with
  | nil => simp [addTo, KeysNodup]
  | cons p d ih =>
    obtain ⟨w, y⟩ := p
    have hd' : KeysNodup d := (List.nodup_cons.mp hd).2
    have hw : w ∉ d.map Prod.fst := (List.nodup_cons.mp hd).1
    by_cases h : w = u
    · subst h; simp only [addTo, if_true]; exact hd
    · simp only [addTo, h, if_false]
      refine List.nodup_cons.mpr ⟨?_, ih hd'⟩
      intro hm
      rcases (mem_keys_addTo d u x w).mp hm with a | a
      · exact h a
      · exact hw a

theorem keysNodup_addScaled (c : F) (d : Derivs F) {acc : Derivs F} (ha : KeysNodup acc) :
    KeysNodup (addScaled c d acc) := by
  induction d generalizing acc with
  | nil => exact ha
  | cons p d ih => exact ih (keysNodup_addTo ha _ _)

theorem mem_keys_addScaled (c : F) (d acc : Derivs F) (v : VarId) :
    v ∈ (addScaled c d acc).map Prod.fst ↔ v ∈ d.map Prod.fst ∨ v ∈ acc.map Prod.fst := by
  induction d generalizing acc with
  | nil => simp [addScaled]
  | cons p d ih =>
    simp only [addScaled, ih, mem_keys_addTo, List.map_cons, List.mem_cons]
    constructor
    · rintro (a | a | a)
      · exact Or.inl (Or.inr a)
      · exact Or.inl (Or.inl a)
      · exact Or.inr a
    · rintro ((a | a) | a)
      · exact Or.inr (Or.inl a)
      · exact Or.inl a
      · exact Or.inr (Or.inr a)

omit [PyFloat F] in
theorem lookup_eq_none_of_not_mem {d : Derivs F} {v : VarId} (h : v ∉ d.map Prod.fst) :
    d.lookup v = none := by
  induction d with
  | nil => rfl
  | cons p d ih =>
    obtain ⟨w, y⟩ := p
    simp only [List.map_cons, List.mem_cons, not_or] at h
    rw [lookup_cons, if_neg h.1, ih h.2]

omit [PyFloat F] in
theorem mem_keys_of_lookup {d : Derivs F} {v : VarId} {x : F} (h : d.lookup v = some x) :
    v ∈ d.map Prod.fst := by
  by_contra hn
  rw [lookup_eq_none_of_not_mem hn] at h
  cases h

section exact
variable [ExactLin F]

theorem lookup_addTo (d : Derivs F) (u : VarId) (x : F) (v : VarId) :
    (addTo d u x).lookup v = if v = u then optAdd (d.lookup u) (some x) else d.lookup v := by
  induction d with
  | nil =>
    simp only [addTo, lookup_cons, List.lookup_nil]
    by_cases h : v = u <;> simp [h, optAdd, ExactLin.zero_add]
  | cons p d ih =>
    obtain ⟨w, y⟩ := p
    by_cases h : w = u
    · subst h
      simp only [addTo, if_true, lookup_cons]
      by_cases h2 : v = w <;> simp [h2, optAdd]
    · have h' : ¬ u = w := fun e => h e.symm
      simp only [addTo, h, if_false, lookup_cons, ih]
      by_cases h2 : v = w
      · subst h2; simp [h]
      · simp [h2, h']

theorem ofDict_addTo (d : Derivs F) (u : VarId) (x : F) :
    Lin.ofDict (addTo d u x) =
      Lin.add (Lin.ofDict d) (fun v => if v = u then some x else none) := by
  funext v
  simp only [Lin.ofDict, Lin.add, lookup_addTo]
  by_cases h : v = u
  · subst h; simp
  · simp [h]

theorem ofDict_addScaled (c : F) (d acc : Derivs F) (hd : KeysNodup d) :
    Lin.ofDict (addScaled c d acc) =
      Lin.add (Lin.ofDict acc) (Lin.smul c (Lin.ofDict d)) := by
  induction d generalizing acc with
  | nil =>
    have : Lin.ofDict ([] : Derivs F) = Lin.zero := by funext v; rfl
    simp [addScaled, this]
  | cons p d ih =>
    obtain ⟨u, x⟩ := p
    have hd' : KeysNodup d := (List.nodup_cons.mp hd).2
    have hu : u ∉ d.map Prod.fst := (List.nodup_cons.mp hd).1
    simp only [addScaled]
    rw [ih _ hd', ofDict_addTo, Lin.add_assoc]
    congr 1
    funext v
    simp only [Lin.add, Lin.smul, Lin.ofDict, lookup_cons]
    by_cases h : v = u
    · subst h; simp [lookup_eq_none_of_not_mem hu]
    · simp [h]

end exact

/-! ### Items -/

/-- Linear form denoted by a list of terms, when `g j` is the linear form of object `j`. -/
def linItems (g : NodeId → Lin F) : List (Item F) → Lin F
  | [] => Lin.zero
  | .junk :: ts => linItems g ts
  | .pair c j :: ts => Lin.add (Lin.smul c (g j)) (linItems g ts)

/-- The terms are pairs that refer to objects created before object `i`. -/
def ItemsBelow (i : NodeId) (ts : List (Item F)) : Prop :=
  ∀ t ∈ ts, ∃ c j, t = Item.pair c j ∧ j < i

def scaleItem (c : F) : Item F → Item F
  | .junk => .junk
  | .pair f n => .pair (c * f) n

theorem pushScaled_eq (c : F) (i : NodeId) (l ts : List (Item F)) (hl : ItemsBelow i l) :
    pushScaled c l ts = ((l.map (scaleItem c)).reverse ++ ts, true) := by
  induction l generalizing ts with
  | nil => simp [pushScaled]
  | cons t l ih =>
    obtain ⟨f, n, rfl, _⟩ := hl t (by simp)
    have hl' : ItemsBelow i l := fun t ht => hl t (by simp [ht])
    simp [pushScaled, ih _ hl', scaleItem]

theorem pushScaled_reverse (c : F) (i : NodeId) (tj ts : List (Item F)) (h : ItemsBelow i tj) :
    pushScaled c tj.reverse ts = (tj.map (scaleItem c) ++ ts, true) := by
  rw [pushScaled_eq c i]
  · simp
  · intro t ht; exact h t (by simpa using ht)

theorem itemsBelow_scale {c : F} {i k : NodeId} (hik : i ≤ k) {tj : List (Item F)}
    (h : ItemsBelow i tj) : ItemsBelow k (tj.map (scaleItem c)) := by
  intro t ht
  obtain ⟨t', ht', rfl⟩ := List.mem_map.mp ht
  obtain ⟨f, n, rfl, hn⟩ := h t' ht'
  exact ⟨c * f, n, rfl, by omega⟩

theorem itemsBelow_append {i : NodeId} {a b : List (Item F)} (ha : ItemsBelow i a)
    (hb : ItemsBelow i b) : ItemsBelow i (a ++ b) := by
  intro t ht
  rcases List.mem_append.mp ht with h | h
  · exact ha t h
  · exact hb t h

theorem itemsCost_append (cs : List Nat) (a b : List (Item F)) :
    itemsCost cs (a ++ b) = itemsCost cs a + itemsCost cs b := by
  induction a with
  | nil => simp [itemsCost]
  | cons t a ih => cases t <;> simp [itemsCost, ih] <;> omega

theorem itemsCost_scale (cs : List Nat) (c : F) (a : List (Item F)) :
    itemsCost cs (a.map (scaleItem c)) = itemsCost cs a := by
  induction a with
  | nil => rfl
  | cons t a ih => cases t <;> simp [itemsCost, scaleItem, ih]

section exact
variable [ExactLin F]

theorem linItems_append (g : NodeId → Lin F) (a b : List (Item F)) :
    linItems g (a ++ b) = Lin.add (linItems g a) (linItems g b) := by
  induction a with
  | nil => simp [linItems]
  | cons t a ih => cases t <;> simp [linItems, ih, Lin.add_assoc]

theorem linItems_scale (g : NodeId → Lin F) (c : F) (a : List (Item F)) :
    linItems g (a.map (scaleItem c)) = Lin.smul c (linItems g a) := by
  induction a with
  | nil => simp [linItems]
  | cons t a ih => cases t <;> simp [linItems, scaleItem, ih, Lin.smul_add, Lin.smul_smul]

end exact

/-! ### Well-formed heaps, termination -/

/-- Terms refer to existing, earlier objects. -/
def HeapWF (h : Heap F) : Prop :=
  ∀ i ts, h[i]? = some (LC.terms ts) → ItemsBelow i ts

theorem costs_append (h : Heap F) (lc : LC F) :
    costs (h ++ [lc]) = costs h ++ [nodeCost (costs h) lc] := by
  simp [costs, List.foldl_append]

theorem length_costs (h : Heap F) : (costs h).length = h.length := by
  induction h using List.reverseRecOn with
  | nil => rfl
  | append_singleton h lc ih => simp [costs_append, ih]

theorem itemsCost_congr {cs cs' : List Nat} {i : NodeId} {ts : List (Item F)}
    (hts : ItemsBelow i ts) (hcs : ∀ j, j < i → cs[j]? = cs'[j]?) :
    itemsCost cs ts = itemsCost cs' ts := by
  induction ts with
  | nil => rfl
  | cons t ts ih =>
    obtain ⟨f, n, rfl, hn⟩ := hts t (by simp)
    have hts' : ItemsBelow i ts := fun t ht => hts t (by simp [ht])
    simp [itemsCost, ih hts', hcs n hn]

theorem heapWF_of_append {h : Heap F} {lc : LC F} (hw : HeapWF (h ++ [lc])) : HeapWF h := by
  intro i ts hi
  apply hw i ts
  have : i < h.length := by
    rw [List.getElem?_eq_some_iff] at hi; exact hi.1
  rw [List.getElem?_append_left this]; exact hi

/-- The cost table satisfies its defining equation. -/
theorem costs_spec (h : Heap F) (hw : HeapWF h) (i : NodeId) (lc : LC F)
    (hi : h[i]? = some lc) : (costs h)[i]? = some (nodeCost (costs h) lc) := by
  induction h using List.reverseRecOn generalizing i lc with
  | nil => simp at hi
  | append_singleton h l ih =>
    have hw' := heapWF_of_append hw
    rw [costs_append]
    have key : ∀ k lc', k ≤ h.length → (h ++ [l])[k]? = some lc' →
        nodeCost (costs h ++ [nodeCost (costs h) l]) lc' = nodeCost (costs h) lc' := by
      intro k lc' hk hk'
      cases lc' with
      | dict d => rfl
      | terms ts =>
        apply itemsCost_congr (hw k ts hk')
        intro j hj
        rw [List.getElem?_append_left]
        rw [length_costs]; omega
    by_cases hlt : i < h.length
    · have hi0 := hi
      rw [List.getElem?_append_left hlt] at hi
      rw [List.getElem?_append_left (by rw [length_costs]; exact hlt), ih hw' i lc hi,
        key i lc hlt.le hi0]
    · have hle : h.length ≤ i := Nat.le_of_not_lt hlt
      have hi0 := hi
      rw [List.getElem?_append_right hle] at hi
      have : i - h.length = 0 := by
        by_contra hne
        rw [List.getElem?_eq_none (by simp; omega)] at hi
        cases hi
      have hieq : i = h.length := by omega
      rw [this] at hi
      simp at hi
      subst hi
      subst hieq
      rw [key h.length l le_rfl hi0]
      rw [List.getElem?_append_right (by rw [length_costs])]
      simp [length_costs]

/-- Termination of the loop, for any float semantics: with enough fuel the loop ends normally, and
only the object being expanded is modified. -/
theorem expandLoop_terminates (cs : List Nat) (fuel : Nat) (h : Heap F) (i : NodeId)
    (d : Derivs F) (ts : List (Item F)) (hi : h[i]? = some (.terms ts)) (hw : HeapWF h)
    (hcs : ∀ j lc, j < i → h[j]? = some lc → cs[j]? = some (nodeCost cs lc))
    (hfuel : itemsCost cs ts < fuel) :
    ∃ d', expandLoop fuel h i d = (h.set i (.dict d'), .ok ()) := by
  induction fuel generalizing h d ts with
  | zero => omega
  | succ fuel ih =>
    have hlen : i < h.length := by rw [List.getElem?_eq_some_iff] at hi; exact hi.1
    have hts := hw i ts hi
    cases ts with
    | nil => exact ⟨d, by simp [expandLoop, expandStep, hi]⟩
    | cons t ts =>
      obtain ⟨c, j, rfl, hj⟩ := hts t (by simp)
      have hts' : ItemsBelow i ts := fun t ht => hts t (by simp [ht])
      have hjlen : j < h.length := by omega
      have hne : i ≠ j := by omega
      have hget : (h.set i (LC.terms ts))[j]? = some h[j] := by
        rw [List.getElem?_set_ne hne, List.getElem?_eq_getElem hjlen]
      have hgetj : h[j]? = some h[j] := List.getElem?_eq_getElem hjlen
      have hcsj := hcs j _ hj hgetj
      have hwf : ∀ ts', ItemsBelow i ts' → HeapWF (h.set i (LC.terms ts')) := by
        intro ts' hb k us hk
        by_cases hki : i = k
        · subst hki
          rw [List.getElem?_set_self hlen] at hk
          cases hk; exact hb
        · rw [List.getElem?_set_ne hki] at hk
          exact hw k us hk
      have hcs' : ∀ ts' : List (Item F), ∀ j lc, j < i →
          (h.set i (LC.terms ts'))[j]? = some lc → cs[j]? = some (nodeCost cs lc) := by
        intro ts' k lc hk hk'
        rw [List.getElem?_set_ne (by omega)] at hk'
        exact hcs k lc hk hk'
      simp only [itemsCost] at hfuel
      cases hj' : h[j] with
      | dict dj =>
        obtain ⟨d', hd'⟩ := ih (h.set i (LC.terms ts)) (addScaled c dj d) ts
          (List.getElem?_set_self hlen) (hwf ts hts') (hcs' ts) (by omega)
        refine ⟨d', ?_⟩
        simp only [expandLoop, expandStep, hi, hget, hj']
        rw [hd', List.set_set]
      | terms tj =>
        rw [hj'] at hgetj hcsj
        have hb := hw j tj hgetj
        have hb' : ItemsBelow i (tj.map (scaleItem c) ++ ts) :=
          itemsBelow_append (itemsBelow_scale hj.le hb) hts'
        obtain ⟨d', hd'⟩ := ih (h.set i (LC.terms (tj.map (scaleItem c) ++ ts))) d _
          (List.getElem?_set_self hlen) (hwf _ hb') (hcs' _) (by
            rw [itemsCost_append, itemsCost_scale]
            simp only [nodeCost] at hcsj
            rw [hcsj] at hfuel
            simp only [Option.getD_some] at hfuel
            omega)
        refine ⟨d', ?_⟩
        simp only [expandLoop, expandStep, hi, hget, hj', pushScaled_reverse c j tj ts hb,
          List.set_set]
        rw [hd', List.set_set]

theorem expand_terminates (h : Heap F) (hw : HeapWF h) (i : NodeId) (ts : List (Item F))
    (hi : h[i]? = some (.terms ts)) :
    ∃ d', expand h i = (h.set i (.dict d'), .ok ()) := by
  apply expandLoop_terminates (costs h) _ h i [] ts hi hw
  · intro j lc _ hj; exact costs_spec h hw j lc hj
  · have := costs_spec h hw i _ hi
    simp [fuelFor, this, nodeCost]

/-- Reading derivatives ends normally, and only the object read is modified. -/
theorem readDerivs_terminates (h : Heap F) (hw : HeapWF h) (i : NodeId) (hi : i < h.length) :
    ∃ d, readDerivs h i = (h.set i (.dict d), .ok d) := by
  have hg : h[i]? = some h[i] := List.getElem?_eq_getElem hi
  cases hc : h[i] with
  | dict d =>
    refine ⟨d, ?_⟩
    rw [hc] at hg
    simp only [readDerivs, hg]
    have : h.set i (LC.dict d) = h := by
      apply List.ext_getElem?
      intro k
      by_cases hk : i = k
      · subst hk; rw [List.getElem?_set_self hi, hg]
      · rw [List.getElem?_set_ne hk]
    rw [this]
  | terms ts =>
    rw [hc] at hg
    obtain ⟨d', hd'⟩ := expand_terminates h hw i ts hg
    refine ⟨d', ?_⟩
    simp [readDerivs, hg, hd', List.getElem?_set_self hi]

/-! ### Denotation -/

/-- One heap cell represents the linear form `l`, given the linear forms `g` of the other cells. -/
def CellOK (g : NodeId → Lin F) (i : NodeId) : LC F → Prop
  | .dict d => KeysNodup d ∧ Lin.ofDict d = g i
  | .terms ts => ItemsBelow i ts ∧ linItems g ts = g i

/-- `g` gives, for each object of the heap, the linear form that it represents. -/
def Denotes (h : Heap F) (g : NodeId → Lin F) : Prop :=
  ∀ i lc, h[i]? = some lc → CellOK g i lc

theorem Denotes.wf {h : Heap F} {g : NodeId → Lin F} (hd : Denotes h g) : HeapWF h :=
  fun i ts hi => (hd i _ hi).1

section exact
variable [ExactLin F]

/-- The local variable `derivatives` and the remaining terms always add up to the linear form of
the object; hence the final dictionary represents it. -/
theorem expandLoop_denotes (fuel : Nat) (h : Heap F) (g : NodeId → Lin F) (i : NodeId)
    (d : Derivs F) (ts : List (Item F)) (hi : h[i]? = some (.terms ts))
    (hg : ∀ k lc, k ≠ i → h[k]? = some lc → CellOK g k lc) (hb : ItemsBelow i ts)
    (hnd : KeysNodup d) (hsum : Lin.add (Lin.ofDict d) (linItems g ts) = g i)
    (d' : Derivs F) (hres : expandLoop fuel h i d = (h.set i (.dict d'), .ok ())) :
    KeysNodup d' ∧ Lin.ofDict d' = g i := by
  induction fuel generalizing h d ts with
  | zero => simp [expandLoop] at hres
  | succ fuel ih =>
    have hlen : i < h.length := by rw [List.getElem?_eq_some_iff] at hi; exact hi.1
    cases ts with
    | nil =>
      have : d = d' := by
        simp only [expandLoop, expandStep, hi, Prod.mk.injEq, and_true] at hres
        have := congrArg (fun l => l[i]?) hres
        simpa [List.getElem?_set_self hlen] using this
      subst this
      simp [linItems] at hsum
      exact ⟨hnd, hsum⟩
    | cons t ts =>
      obtain ⟨c, j, rfl, hj⟩ := hb t (by simp)
      have hb' : ItemsBelow i ts := fun t ht => hb t (by simp [ht])
      have hjlen : j < h.length := by omega
      have hne : i ≠ j := by omega
      have hget : (h.set i (LC.terms ts))[j]? = some h[j] := by
        rw [List.getElem?_set_ne hne, List.getElem?_eq_getElem hjlen]
      have hgetj : h[j]? = some h[j] := List.getElem?_eq_getElem hjlen
      have hcell := hg j _ (Ne.symm hne) hgetj
      have hgs : ∀ ts', ∀ k lc, k ≠ i → (h.set i (LC.terms ts'))[k]? = some lc →
          CellOK g k lc := by
        intro ts' k lc hk hk'
        rw [List.getElem?_set_ne (Ne.symm hk)] at hk'
        exact hg k lc hk hk'
      cases hj' : h[j] with
      | dict dj =>
        rw [hj'] at hcell
        simp only [expandLoop, expandStep, hi, hget, hj'] at hres
        refine ih (h.set i (LC.terms ts)) _ ts (List.getElem?_set_self hlen) (hgs ts) hb'
          (keysNodup_addScaled c dj hnd) ?_ (by rw [hres, List.set_set])
        rw [ofDict_addScaled c dj d hcell.1, hcell.2, Lin.add_assoc]
        exact hsum
      | terms tj =>
        rw [hj'] at hcell
        simp only [expandLoop, expandStep, hi, hget, hj',
          pushScaled_reverse c j tj ts hcell.1, List.set_set] at hres
        refine ih (h.set i (LC.terms (tj.map (scaleItem c) ++ ts))) d _
          (List.getElem?_set_self hlen) (hgs _)
          (itemsBelow_append (itemsBelow_scale hj.le hcell.1) hb') hnd ?_
          (by rw [hres, List.set_set])
        rw [linItems_append, linItems_scale, hcell.2]
        exact hsum

theorem denotes_set_dict {h : Heap F} {g : NodeId → Lin F} (hd : Denotes h g) {i : NodeId}
    {d : Derivs F} (hn : KeysNodup d) (hl : Lin.ofDict d = g i) :
    Denotes (h.set i (.dict d)) g := by
  intro k lc hk
  by_cases hki : i = k
  · subst hki
    by_cases hlen : i < h.length
    · rw [List.getElem?_set_self hlen] at hk
      cases hk; exact ⟨hn, hl⟩
    · rw [List.getElem?_eq_none (by simpa using hlen)] at hk; cases hk
  · rw [List.getElem?_set_ne hki] at hk
    exact hd k lc hk

/-- Reading derivatives gives the denoted linear form and keeps the denotation of every object. -/
theorem readDerivs_denotes (h : Heap F) (g : NodeId → Lin F) (hd : Denotes h g) (i : NodeId)
    (hi : i < h.length) :
    ∃ d, readDerivs h i = (h.set i (.dict d), .ok d) ∧ KeysNodup d ∧ Lin.ofDict d = g i ∧
      Denotes (h.set i (.dict d)) g := by
  obtain ⟨d, hr⟩ := readDerivs_terminates h hd.wf i hi
  have hg : h[i]? = some h[i] := List.getElem?_eq_getElem hi
  have key : KeysNodup d ∧ Lin.ofDict d = g i := by
    cases hc : h[i] with
    | dict d0 =>
      rw [hc] at hg
      simp only [readDerivs, hg, Prod.mk.injEq, Except.ok.injEq] at hr
      have := hd i _ hg
      rw [← hr.2]; exact this
    | terms ts =>
      rw [hc] at hg
      obtain ⟨d', hd'⟩ := expand_terminates h hd.wf i ts hg
      have hcell := hd i _ hg
      have := expandLoop_denotes (fuelFor h i) h g i [] ts hg
        (fun k lc _ hk => hd k lc hk) hcell.1 (by simp [KeysNodup]) (by
          have : Lin.ofDict ([] : Derivs F) = Lin.zero := by funext v; rfl
          rw [this, Lin.zero_add]; exact hcell.2) d' hd'
      simp only [readDerivs, hg, hd', List.getElem?_set_self hi, Prod.mk.injEq,
        Except.ok.injEq] at hr
      rw [← hr.2]; exact this
  exact ⟨d, hr, key.1, key.2, denotes_set_dict hd key.1 key.2⟩

end exact

end Unc
