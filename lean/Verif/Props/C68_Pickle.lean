import Verif.Model.Pickle

/-
C68: pickling and copying objects of subclasses.
-/

set_option autoImplicit false

namespace Unc

variable {V : Type}

/-- The name `n`, in the body of the class `cls`, is private: it starts with two underscores and does not end with two
underscores (and the name of the class contains something else than underscores). -/
def IsPrivate (cls n : String) : Prop :=
  (∃ t, n.toList = '_' :: '_' :: t) ∧ (¬ ∃ t, n.toList = t ++ ['_', '_']) ∧ ∃ c ∈ cls.toList, c ≠ '_'

theorem mangle_public {cls n : String} (h : ¬ IsPrivate cls n) : mangle cls n = n := by
  unfold mangle
  rw [if_neg]
  intro hm
  simp only [Bool.and_eq_true, Bool.not_eq_true', List.any_eq_true, decide_eq_true_eq] at hm
  obtain ⟨⟨h1, h2⟩, h3⟩ := hm
  refine h ⟨?_, ?_, h3⟩
  · obtain ⟨t, ht⟩ := List.isPrefixOf_iff_prefix.1 h1
    exact ⟨t, ht.symm⟩
  · rintro ⟨t, ht⟩
    rw [← Bool.not_eq_true, List.isSuffixOf_iff_suffix] at h2
    exact h2 ⟨t, ht.symm⟩

/-- The slots of the classes are of the usual kind: no private names, no slot for weak references, no iterator, and no class
attribute that hides a slot. -/
structure UsualSlots (mro : List (PyClass V)) : Prop where
  notPrivate : ∀ c ∈ mro, ∀ n ∈ c.slots.declared, ¬ IsPrivate c.name n
  notWeakref : ∀ c ∈ mro, "__weakref__" ∉ c.slots.declared
  notIterator : ∀ c ∈ mro, ∀ l, c.slots = .iterator l → l = []
  notHidden : ∀ c ∈ mro, ∀ n ∈ c.slots.declared, n ≠ "__dict__" → ∀ x, classLookup mro n ≠ some (.const x)

/-- `o` is an object in the memory `h`: it has a `__dict__` if its classes say so, and values in slots only. -/
structure Inst.Exists (h : DictHeap V) (o : Inst V) : Prop where
  dict : o.dict.isSome = hasDict o.mro
  heap : ∀ r, o.dict = some r → r < h.length
  slots : ∀ n, o.slots n ≠ none → classLookup o.mro n = some .slot

/-- `order` are the elements of the set of the names of the slots, in some order. -/
def SlotOrder (mro : List (PyClass V)) (order : List String) : Prop :=
  order.Nodup ∧ ∀ n, n ∈ order ↔ n ∈ allSlots mro

/-- The whole contents of the instance dictionary, in order. -/
def Inst.dictItems (h : DictHeap V) (o : Inst V) : Option (IDict V) := o.dict.bind fun r => h[r]?

theorem found_declared {mro : List (PyClass V)} (hu : UsualSlots mro) {c : PyClass V} (hc : c ∈ mro) :
    c.slots.found = c.slots.declared := by
  have := hu.notIterator c hc
  cases hs : c.slots with
  | iterator l => rw [this l hs]; rfl
  | _ => rfl

theorem classLookup_slot {mro : List (PyClass V)} {n : String} (h : classLookup mro n = some .slot) :
    ∃ c ∈ mro, n ∈ c.slotAttrs := by
  induction mro with
  | nil => cases h
  | cons c mro ih =>
    unfold classLookup at h
    by_cases hn : n ∈ c.slotAttrs
    · exact ⟨c, by simp, hn⟩
    · rw [if_neg hn] at h
      cases hl : c.consts.lookup n with
      | some x => rw [hl] at h; cases h
      | none =>
        rw [hl] at h
        obtain ⟨c', h1, h2⟩ := ih h
        exact ⟨c', by simp [h1], h2⟩

theorem classLookup_some {mro : List (PyClass V)} {c : PyClass V} (hc : c ∈ mro) {n : String} (hn : n ∈ c.slotAttrs) :
    classLookup mro n ≠ none := by
  induction mro with
  | nil => cases hc
  | cons d mro ih =>
    unfold classLookup
    by_cases hd : n ∈ d.slotAttrs
    · rw [if_pos hd]; simp
    · rw [if_neg hd]
      cases hl : d.consts.lookup n with
      | some x => simp
      | none =>
        rcases List.mem_cons.1 hc with rfl | hc
        · exact absurd hn hd
        · exact ih hc

theorem mem_allSlots {mro : List (PyClass V)} (hu : UsualSlots mro) {n : String} (hn : n ∈ allSlots mro) (hd : n ≠ "__dict__") :
    n ≠ "__weakref__" ∧ classLookup mro n = some .slot := by
  obtain ⟨c, hc, hn⟩ := List.mem_flatMap.1 hn
  rw [found_declared hu hc] at hn
  have hw : n ≠ "__weakref__" := by
    rintro rfl
    exact hu.notWeakref c hc hn
  refine ⟨hw, ?_⟩
  have hs : n ∈ c.slotAttrs := by
    unfold PyClass.slotAttrs
    exact List.mem_map.2 ⟨n, List.mem_filter.2 ⟨hn, by simp [hd, hw]⟩, mangle_public (hu.notPrivate c hc n hn)⟩
  have h1 := classLookup_some hc hs
  have h2 := hu.notHidden c hc n hn hd
  cases hl : classLookup mro n with
  | none => exact absurd hl h1
  | some a =>
    cases a with
    | slot => rfl
    | const x => exact absurd hl (h2 x)

theorem slot_mem {mro : List (PyClass V)} (hu : UsualSlots mro) {n : String} (h : classLookup mro n = some .slot) :
    n ∈ allSlots mro ∧ n ≠ "__dict__" := by
  obtain ⟨c, hc, hn⟩ := classLookup_slot h
  obtain ⟨m, hm, rfl⟩ := List.mem_map.1 hn
  obtain ⟨h1, h2⟩ := List.mem_filter.1 hm
  rw [mangle_public (hu.notPrivate c hc m h1)]
  refine ⟨List.mem_flatMap.2 ⟨c, hc, by rw [found_declared hu hc]; exact h1⟩, ?_⟩
  simp at h2
  exact h2.1

theorem dict_slot {mro : List (PyClass V)} (hu : UsualSlots mro) (h : "__dict__" ∈ allSlots mro) : hasDict mro = true := by
  obtain ⟨c, hc, hn⟩ := List.mem_flatMap.1 h
  rw [found_declared hu hc] at hn
  refine List.any_eq_true.2 ⟨c, hc, ?_⟩
  cases hs : c.slots with
  | absent => rfl
  | _ => rw [hs] at hn; simpa using hn

/-- The saved values of the slots. -/
def slotItems (o : Inst V) (ns : List String) : PickleState V :=
  ns.filterMap fun n => if n = "__dict__" then none else (o.slots n).map fun x => (n, .val x)

theorem set_new {st : PickleState V} {n : String} {x : AttrVal V} (h : ∀ p ∈ st, p.1 ≠ n) :
    PickleState.set st n x = st ++ [(n, x)] := by
  induction st with
  | nil => rfl
  | cons p st ih =>
    obtain ⟨m, y⟩ := p
    unfold PickleState.set
    rw [if_neg (h (m, y) (by simp)), ih (fun p hp => h p (by simp [hp]))]
    rfl

theorem addSlots_eq {h : DictHeap V} {o : Inst V} {ns : List String} (hn : ns.Nodup)
    (hs : ∀ n ∈ ns, n ≠ "__dict__" → n ≠ "__weakref__" ∧ classLookup o.mro n = some .slot)
    (hd : "__dict__" ∈ ns → o.dict.isSome) (acc : PickleState V) (hacc : ∀ n ∈ ns, ∀ p ∈ acc, p.1 ≠ n) :
    o.addSlots h ns (o.dictState ++ acc) =
      .ok (o.dictState ++ (acc ++ slotItems o ns)) := by
  induction ns generalizing acc with
  | nil => simp [Inst.addSlots, slotItems]
  | cons n ns ih =>
    obtain ⟨hn1, hn2⟩ := List.nodup_cons.1 hn
    have ih' := ih hn2 (fun m hm => hs m (by simp [hm])) (fun hm => hd (by simp [hm]))
    unfold Inst.addSlots
    by_cases hnd : n = "__dict__"
    · subst hnd
      obtain ⟨r, hr⟩ := Option.isSome_iff_exists.1 (hd (by simp))
      have := ih' acc (fun m hm => hacc m (by simp [hm]))
      simp only [Inst.dictState, hr] at this ⊢
      simp only [Inst.getattr, if_true, hr, List.cons_append, List.nil_append, PickleState.set]
      simpa [slotItems] using this
    · obtain ⟨hw, hc⟩ := hs n (by simp) hnd
      simp only [Inst.getattr, if_neg hnd, if_neg hw, hc]
      cases hv : o.slots n with
      | none =>
        simp only []
        rw [ih' acc (fun m hm => hacc m (by simp [hm]))]
        simp [slotItems, hnd, hv]
      | some x =>
        simp only []
        rw [set_new, List.append_assoc, ih' (acc ++ [(n, AttrVal.val x)])]
        · simp [slotItems, hnd, hv]
        · intro m hm p hp
          rcases List.mem_append.1 hp with hp | hp
          · exact hacc m (by simp [hm]) p hp
          · obtain rfl : p = (n, .val x) := by simpa using hp
            rintro rfl
            exact hn1 hm
        · intro p hp
          rcases List.mem_append.1 hp with hp | hp
          · cases hd' : o.dict with
            | none => simp [Inst.dictState, hd'] at hp
            | some r =>
              simp [Inst.dictState, hd'] at hp
              rw [hp]
              exact fun e => hnd e.symm
          · exact hacc n (by simp) p hp

theorem setState_slots {h : DictHeap V} {o o' : Inst V} {ns : List String} (hn : ns.Nodup)
    (hs : ∀ n ∈ ns, n ≠ "__dict__" → n ≠ "__weakref__" ∧ classLookup o'.mro n = some .slot) :
    o'.setState h (slotItems o ns) =
      .ok (h, { o' with slots := fun m => if m ∈ ns ∧ m ≠ "__dict__" ∧ o.slots m ≠ none then o.slots m else o'.slots m }) := by
  induction ns generalizing o' with
  | nil => simp [slotItems, Inst.setState]
  | cons n ns ih =>
    obtain ⟨hn1, hn2⟩ := List.nodup_cons.1 hn
    have ihs : ∀ m ∈ ns, m ≠ "__dict__" → m ≠ "__weakref__" ∧ classLookup o'.mro m = some .slot := fun m hm => hs m (by simp [hm])
    by_cases hnd : n = "__dict__"
    · have e : slotItems o (n :: ns) = slotItems o ns := by simp [slotItems, hnd]
      rw [e, ih hn2 ihs]
      congr 3
      funext m
      by_cases hm : m = n
      · subst hm; simp [hnd]
      · simp [hm]
    · cases hv : o.slots n with
      | none =>
        have e : slotItems o (n :: ns) = slotItems o ns := by simp [slotItems, hnd, hv]
        rw [e, ih hn2 ihs]
        congr 3
        funext m
        by_cases hm : m = n
        · subst hm; simp [hv]
        · simp [hm]
      | some x =>
        have e : slotItems o (n :: ns) = (n, .val x) :: slotItems o ns := by simp [slotItems, hnd, hv]
        obtain ⟨hw, hc⟩ := hs n (by simp) hnd
        rw [e]
        unfold Inst.setState
        simp only [Inst.setattr, if_neg hnd, if_neg hw, hc]
        rw [ih (o' := { o' with slots := fun m => if m = n then some x else o'.slots m }) hn2 ihs]
        congr 3
        funext m
        by_cases hm : m = n
        · subst hm; simp [hn1, hv, hnd]
        · simp [hm]

/-- The state of an object, when the slots are of the usual kind. -/
theorem getState_eq {h : DictHeap V} {o : Inst V} (hu : UsualSlots o.mro) (ho : o.Exists h) {order : List String}
    (hord : SlotOrder o.mro order) :
    o.getState h order =
      .ok (o.dictState ++ slotItems o order) := by
  have := addSlots_eq (h := h) (o := o) hord.1 (fun n hn => mem_allSlots hu ((hord.2 n).1 hn))
    (fun hd => by rw [ho.dict]; exact dict_slot hu ((hord.2 _).1 hd)) [] (by simp)
  simpa [Inst.getState] using this

theorem slots_eq {h : DictHeap V} {o : Inst V} (hu : UsualSlots o.mro) (ho : o.Exists h) {order : List String}
    (hord : SlotOrder o.mro order) :
    (fun m => if m ∈ order ∧ m ≠ "__dict__" ∧ o.slots m ≠ none then o.slots m else none) = o.slots := by
  funext m
  by_cases hm : o.slots m = none
  · simp [hm]
  · obtain ⟨h1, h2⟩ := slot_mem hu (ho.slots m hm)
    rw [if_pos ⟨(hord.2 m).2 h1, h2, hm⟩]

theorem getattr_congr {h h' : DictHeap V} {o o' : Inst V} (hm : o'.mro = o.mro) (hs : o'.slots = o.slots)
    (hd : ∀ n, o'.inDict h' n = o.inDict h n) (n : String) (hn : n ≠ "__dict__") : o'.getattr h' n = o.getattr h n := by
  unfold Inst.getattr
  rw [if_neg hn, if_neg hn, hm, hs, hd]

theorem weakref_slot {mro : List (PyClass V)} (h : "__weakref__" ∈ allSlots mro) : hasWeakref mro = true := by
  obtain ⟨c, hc, hn⟩ := List.mem_flatMap.1 h
  refine List.any_eq_true.2 ⟨c, hc, ?_⟩
  cases hs : c.slots with
  | absent => rfl
  | iterator l => rw [hs] at hn; cases hn
  | name n => rw [hs] at hn; simpa [Slots.declared, Slots.found] using hn
  | names l => rw [hs] at hn; exact decide_eq_true hn

theorem set_mem {st : PickleState V} {n : String} {x : AttrVal V} : (n, x) ∈ PickleState.set st n x := by
  induction st with
  | nil => simp [PickleState.set]
  | cons p st ih =>
    obtain ⟨m, y⟩ := p
    unfold PickleState.set
    by_cases hm : m = n
    · simp [hm]
    · simp [hm, ih]

theorem set_keys {st : PickleState V} {n k : String} {x y : AttrVal V} (h : (k, y) ∈ st) :
    ∃ z, (k, z) ∈ PickleState.set st n x := by
  induction st with
  | nil => cases h
  | cons p st ih =>
    obtain ⟨m, y'⟩ := p
    unfold PickleState.set
    by_cases hm : m = n
    · rw [if_pos hm]
      rcases List.mem_cons.1 h with e | e
      · injection e with e1 e2
        exact ⟨x, by simp [e1]⟩
      · exact ⟨y, by simp [e]⟩
    · rw [if_neg hm]
      rcases List.mem_cons.1 h with e | e
      · exact ⟨y, by simp [e]⟩
      · obtain ⟨z, hz⟩ := ih e
        exact ⟨z, by simp [hz]⟩

theorem addSlots_keys {h : DictHeap V} {o : Inst V} {ns : List String} {st st' : PickleState V}
    (hW : hasWeakref o.mro = true) (hst : o.addSlots h ns st = .ok st') :
    (∀ k y, (k, y) ∈ st → ∃ z, (k, z) ∈ st') ∧ ("__weakref__" ∈ ns → ∃ z, ("__weakref__", z) ∈ st') := by
  induction ns generalizing st with
  | nil =>
    injection hst with hst
    subst hst
    exact ⟨fun k y hk => ⟨y, hk⟩, fun hn => absurd hn (by simp)⟩
  | cons n ns ih =>
    unfold Inst.addSlots at hst
    cases hg : o.getattr h n with
    | ok x =>
      rw [hg] at hst
      obtain ⟨h1, h2⟩ := ih hst
      refine ⟨fun k y hk => ?_, fun hn => ?_⟩
      · obtain ⟨z, hz⟩ := set_keys (n := n) (x := x) hk
        exact h1 k z hz
      · rcases List.mem_cons.1 hn with e | e
        · exact h1 _ x (e ▸ set_mem)
        · exact h2 e
    | error e =>
      rw [hg] at hst
      cases e with
      | attributeError =>
        obtain ⟨h1, h2⟩ := ih hst
        refine ⟨h1, fun hn => ?_⟩
        rcases List.mem_cons.1 hn with e | e
        · rw [← e] at hg
          simp [Inst.getattr, hW] at hg
        · exact h2 e
      | _ => cases hst

theorem setState_weakref {st : PickleState V} {x : AttrVal V} (hx : ("__weakref__", x) ∈ st) (h : DictHeap V) (o : Inst V) :
    ∃ e, o.setState h st = .error e := by
  induction st generalizing h o with
  | nil => cases hx
  | cons p st ih =>
    obtain ⟨n, y⟩ := p
    unfold Inst.setState
    rcases List.mem_cons.1 hx with e | e
    · injection e with e1 e2
      subst e1
      exact ⟨.attributeError, by simp [Inst.setattr]⟩
    · cases hs : o.setattr h n y with
      | error e => exact ⟨e, rfl⟩
      | ok r => exact ih e _ _

/-- **C68** (partial: the slots must be of the usual kind, see `C68_fails_*`). Unpickling a pickled object of any class derived
from the classes of the package gives an object of the same class, with the same attributes and the same `__dict__`,
including items that are hidden by slots. The original is not modified, and the new object does not share its `__dict__`. -/
theorem C68_pickle_partial (h : DictHeap V) (o : Inst V) (hu : UsualSlots o.mro) (ho : o.Exists h) (order : List String)
    (hord : SlotOrder o.mro order) :
    ∃ h' o', o.pickle h order = .ok (h', o') ∧ o'.mro = o.mro ∧
      (∀ n, n ≠ "__dict__" → o'.getattr h' n = o.getattr h n) ∧ o'.dictItems h' = o.dictItems h ∧
      (∀ r, r < h.length → h'[r]? = h[r]?) ∧ ∀ r, o'.dict = some r → o.dict ≠ some r := by
  have hst := getState_eq hu ho hord
  have hsl : ∀ n ∈ order, n ≠ "__dict__" → n ≠ "__weakref__" ∧ classLookup o.mro n = some .slot :=
    fun n hn => mem_allSlots hu ((hord.2 n).1 hn)
  have hmap : ∀ k, (slotItems o order).map (fun p => (p.1, p.2.moveDict k)) = slotItems o order := by
    intro k
    unfold slotItems
    rw [List.map_filterMap]
    congr 1
    funext n
    split
    · rfl
    · cases o.slots n <;> rfl
  cases hd : o.dict with
  | some r =>
    have hr := ho.heap r hd
    have hD : hasDict o.mro = true := by rw [← ho.dict, hd]; rfl
    refine ⟨h ++ [h[r]] ++ [[]], { o with dict := some h.length }, ?_, rfl, ?_, ?_, ?_, ?_⟩
    · unfold Inst.pickle
      rw [hst]
      simp only [Inst.dictState, hd, Inst.new, hD, if_true, List.cons_append, List.nil_append, List.map_cons, hmap]
      have e : h[r]?.getD [] = h[r] := by simp [hr]
      rw [e]
      unfold Inst.setState
      simp only [AttrVal.moveDict, Inst.setattr, if_true]
      rw [setState_slots (o := o) (o' := ⟨o.mro, fun _ => none, some h.length⟩) hord.1 hsl]
      simp only [slots_eq hu ho hord]
    · refine getattr_congr rfl rfl ?_
      intro n
      simp [Inst.inDict, hd, hr]
    · simp [Inst.dictItems, hd, hr]
    · intro r' hr'
      rw [List.append_assoc, List.getElem?_append_left hr']
    · intro r' hr' h'
      injection h' with h'
      injection hr' with hr'
      omega
  | none =>
    have hD : hasDict o.mro = false := by rw [← ho.dict, hd]; rfl
    refine ⟨h, o, ?_, rfl, fun _ _ => rfl, rfl, fun _ _ => rfl, fun r hr => by rw [hd] at hr; cases hr⟩
    unfold Inst.pickle
    rw [hst]
    simp only [Inst.dictState, hd, Inst.new, hD, Bool.false_eq_true, if_false, List.nil_append, hmap]
    rw [setState_slots (o := o) (o' := ⟨o.mro, fun _ => none, none⟩) hord.1 hsl]
    simp only [slots_eq hu ho hord]
    obtain ⟨m, s, d⟩ := o
    simp only at hd
    rw [hd]

/-- **C68** for `copy.copy`, with the same conditions: the copy has the same class and attributes. Its `__dict__` *is* that of
the original. -/
theorem C68_copy_partial (h : DictHeap V) (o : Inst V) (hu : UsualSlots o.mro) (ho : o.Exists h) (order : List String)
    (hord : SlotOrder o.mro order) :
    ∃ h' o', o.copy h order = .ok (h', o') ∧ o'.mro = o.mro ∧
      (∀ n, n ≠ "__dict__" → o'.getattr h' n = o.getattr h n) ∧ o'.dictItems h' = o.dictItems h ∧
      (∀ r, r < h.length → h'[r]? = h[r]?) ∧ o'.dict = o.dict := by
  have hst := getState_eq hu ho hord
  have hsl : ∀ n ∈ order, n ≠ "__dict__" → n ≠ "__weakref__" ∧ classLookup o.mro n = some .slot :=
    fun n hn => mem_allSlots hu ((hord.2 n).1 hn)
  cases hd : o.dict with
  | some r =>
    have hr := ho.heap r hd
    have hD : hasDict o.mro = true := by rw [← ho.dict, hd]; rfl
    refine ⟨h ++ [[]], o, ?_, rfl, ?_, ?_, ?_, hd⟩
    · unfold Inst.copy
      rw [hst]
      simp only [Inst.dictState, hd, Inst.new, hD, if_true, List.cons_append, List.nil_append]
      unfold Inst.setState
      simp only [Inst.setattr, if_true]
      rw [setState_slots (o := o) (o' := ⟨o.mro, fun _ => none, some r⟩) hord.1 hsl]
      simp only [slots_eq hu ho hord]
      obtain ⟨m, s, d⟩ := o
      simp only at hd
      rw [hd]
    · refine getattr_congr rfl rfl ?_
      intro n
      simp [Inst.inDict, hd, hr, List.getElem?_append_left]
    · simp [Inst.dictItems, hd, hr, List.getElem?_append_left]
    · intro r' hr'
      rw [List.getElem?_append_left hr']
  | none =>
    have hD : hasDict o.mro = false := by rw [← ho.dict, hd]; rfl
    refine ⟨h, o, ?_, rfl, fun _ _ => rfl, rfl, fun _ _ => rfl, hd⟩
    unfold Inst.copy
    rw [hst]
    simp only [Inst.dictState, hd, Inst.new, hD, Bool.false_eq_true, if_false, List.nil_append]
    rw [setState_slots (o := o) (o' := ⟨o.mro, fun _ => none, none⟩) hord.1 hsl]
    simp only [slots_eq hu ho hord]
    obtain ⟨m, s, d⟩ := o
    simp only at hd
    rw [hd]

/-! ### The classes of the package, and some subclasses

The values are integers. -/

/-- `AffineScalarFunc` (core.py 1623) -/
def clsAffine : PyClass Int := ⟨"AffineScalarFunc", .names ["_nominal_value", "_linear_part"], []⟩

/-- `Variable` (core.py 2726) -/
def clsVariable : PyClass Int := ⟨"Variable", .names ["_std_dev", "tag"], []⟩

/-- An object of a class that derives from `Variable`. -/
def subVariable (c : PyClass Int) (vals : List (String × Int)) (dict : Option Nat) : Inst Int :=
  ⟨[c, clsVariable, clsAffine], fun n => vals.lookup n, dict⟩

/-- `class Sub(Variable): pass`, and `x.__dict__ = {'tag': 7, 'unit': 8}`, for a variable that has a tag: the item `'tag'` is
hidden by the slot. -/
def exSub : Inst Int :=
  subVariable ⟨"Sub", .absent, []⟩ [("_nominal_value", 1), ("_linear_part", 2), ("_std_dev", 3), ("tag", 4)] (some 0)

def exHeap : DictHeap Int := [[("tag", 7), ("unit", 8)]]

example : UsualSlots exSub.mro := by
  refine ⟨?_, ?_, ?_, ?_⟩ <;> intro c hc <;>
    (simp [exSub, subVariable, clsVariable, clsAffine] at hc; rcases hc with rfl | rfl | rfl) <;>
    simp [Slots.declared] <;> first | decide +kernel | (constructor <;> rintro ⟨⟨t, ht⟩, -⟩ <;> simp at ht) |
      (constructor <;> intro x hx <;> cases hx)

example : exSub.Exists exHeap := by
  refine ⟨rfl, ?_, ?_⟩
  · intro r hr
    obtain rfl : 0 = r := by simpa [exSub, subVariable] using hr
    decide
  · intro n hn
    have : n = "_nominal_value" ∨ n = "_linear_part" ∨ n = "_std_dev" ∨ n = "tag" := by
      simp [exSub, subVariable, List.lookup] at hn
      grind
    rcases this with rfl | rfl | rfl | rfl <;> rfl

example : SlotOrder exSub.mro ["tag", "_linear_part", "_std_dev", "_nominal_value"] := by
  refine ⟨by decide, fun n => ?_⟩
  have : allSlots exSub.mro = ["_std_dev", "tag", "_nominal_value", "_linear_part"] := rfl
  rw [this]
  simp
  grind

/-- The value of an attribute, after pickling. -/
def afterPickle (h : DictHeap V) (o : Inst V) (order : List String) (n : String) : PyRes (Option V) :=
  match o.pickle h order with
  | .error e => .error e
  | .ok (h, o) => match o.getattr h n with
    | .ok (.val x) => .ok (some x)
    | .ok _ => .ok none
    | .error e => .error e

example : afterPickle exHeap exSub ["tag", "_linear_part", "_std_dev", "_nominal_value"] "tag" = .ok (some 4) := rfl
example : afterPickle exHeap exSub ["tag", "_linear_part", "_std_dev", "_nominal_value"] "unit" = .ok (some 8) := rfl

/-- An object of the class `class Sub(Variable): __slots__ = ('__unit',)`. -/
def exPrivate : Inst Int :=
  subVariable ⟨"Sub", .names ["__unit"], []⟩ [("_nominal_value", 1), ("_linear_part", 2), ("_std_dev", 3), ("tag", 4), ("_Sub__unit", 5)] none

/-- Failure of **C68**: the value of a private slot is lost when pickling, silently. -/
theorem C68_fails_private :
    exPrivate.getattr [] "_Sub__unit" = .ok (.val 5) ∧
    afterPickle [] exPrivate ["__unit", "_std_dev", "tag", "_nominal_value", "_linear_part"] "tag" = .ok (some 4) ∧
    afterPickle [] exPrivate ["__unit", "_std_dev", "tag", "_nominal_value", "_linear_part"] "_Sub__unit" = .error .attributeError :=
  ⟨rfl, rfl, rfl⟩

/-- An object of the class `class Sub(Variable): __slots__ = iter(('unit',))`. -/
def exIterator : Inst Int :=
  subVariable ⟨"Sub", .iterator ["unit"], []⟩ [("_nominal_value", 1), ("_linear_part", 2), ("_std_dev", 3), ("tag", 4), ("unit", 5)] none

/-- Failure of **C68**: slots given by an iterator are lost when pickling, silently. -/
theorem C68_fails_iterator :
    exIterator.getattr [] "unit" = .ok (.val 5) ∧
    SlotOrder exIterator.mro ["_std_dev", "tag", "_nominal_value", "_linear_part"] ∧
    afterPickle [] exIterator ["_std_dev", "tag", "_nominal_value", "_linear_part"] "unit" = .error .attributeError :=
  ⟨rfl, ⟨by decide, fun n => Iff.rfl⟩, rfl⟩

/-- An object of the class `class Sub(Variable): __slots__ = ('__weakref__',)`. -/
def exWeakref : Inst Int :=
  subVariable ⟨"Sub", .names ["__weakref__"], []⟩ [("_nominal_value", 1), ("_linear_part", 2), ("_std_dev", 3), ("tag", 4)] none

/-- Failure of **C68**: whatever the class, its objects can be neither unpickled nor copied if the class declares a slot
`__weakref__`. -/
theorem C68_fails_weakref (h : DictHeap V) (o : Inst V) (hw : "__weakref__" ∈ allSlots o.mro) (order : List String)
    (hord : SlotOrder o.mro order) : (∃ e, o.pickle h order = .error e) ∧ ∃ e, o.copy h order = .error e := by
  have hmem := (hord.2 _).2 hw
  have hW := weakref_slot hw
  constructor
  · unfold Inst.pickle
    cases hst : o.getState h order with
    | error e => exact ⟨e, rfl⟩
    | ok st =>
      obtain ⟨x, hx⟩ := (addSlots_keys hW hst).2 hmem
      simp only []
      exact setState_weakref (x := x.moveDict h.length) (List.mem_map.2 ⟨_, hx, rfl⟩) _ _
  · unfold Inst.copy
    cases hst : o.getState h order with
    | error e => exact ⟨e, rfl⟩
    | ok st =>
      obtain ⟨x, hx⟩ := (addSlots_keys hW hst).2 hmem
      exact setState_weakref hx _ _

example : "__weakref__" ∈ allSlots exWeakref.mro := by decide +kernel

example : afterPickle [] exWeakref ["__weakref__", "_std_dev", "tag", "_nominal_value", "_linear_part"] "tag" = .error .attributeError := rfl

/-- An object of the class `class Sub(Variable): tag = 9`, after `del x.tag`. -/
def exHidden : Inst Int :=
  subVariable ⟨"Sub", .absent, [("tag", 9)]⟩ [("_nominal_value", 1), ("_linear_part", 2), ("_std_dev", 3)] (some 0)

/-- Failure of **C68**: if a class attribute hides a slot, pickling adds an item to the `__dict__`. -/
theorem C68_fails_hidden :
    exHidden.dictItems [[]] = some [] ∧
    ∃ h o, exHidden.pickle [[]] ["_std_dev", "tag", "_nominal_value", "_linear_part"] = .ok (h, o) ∧ o.dictItems h = some [("tag", 9)] :=
  ⟨rfl, _, _, rfl, rfl⟩

/-- Failure of **C68** for `copy.copy`: the copy and the original have the same `__dict__`, so that setting an attribute of the
copy also sets it in the original. -/
theorem C68_fails_copy :
    exSub.getattr exHeap "unit" = .ok (.val 8) ∧
    ∃ h o h' o', exSub.copy exHeap ["tag", "_linear_part", "_std_dev", "_nominal_value"] = .ok (h, o) ∧
      o.setattr h "unit" (.val 10) = .ok (h', o') ∧ exSub.getattr h' "unit" = .ok (.val 10) :=
  ⟨rfl, _, _, _, _, rfl, rfl, rfl⟩

end Unc
