import Verif.Spec.Threads
import Verif.Lemmas.LinComb

/-
Threads that do not interfere: invariant, and termination.
-/

namespace Unc

set_option linter.unusedSectionVars false
set_option autoImplicit false

variable {F : Type} [PyFloat F]

theorem Uses.lt {h : Heap F} (hw : HeapWF h) {i j : NodeId} (hu : Uses h i j) : j < i := by
  induction hu with
  | direct h1 h2 =>
    obtain ⟨c, n, h3, h4⟩ := hw _ _ h1 _ h2
    cases h3; exact h4
  | step _ h1 h2 ih =>
    obtain ⟨c, n, h3, h4⟩ := hw _ _ h1 _ h2
    cases h3; exact h4.trans ih

/-- The loop of `expand` ends with `D`. -/
def Goes (h : Heap F) (i : NodeId) (D : Derivs F) (ts : List (Item F)) (d : Derivs F) : Prop :=
  ∃ fuel, expandLoop fuel (h.set i (.terms ts)) i d = (h.set i (.dict D), .ok ())

def Mine (h : Heap F) (i : NodeId) (ts : List (Item F)) : Prop :=
  ∀ t ∈ ts, ∃ c n, t = .pair c n ∧ Uses h i n

/-- Invariant of a thread that reads a fresh object `i`; `D` is the result that a lone thread
obtains. -/
def TInv (h : Heap F) (i : NodeId) (D : Derivs F) (cell : TCell F) : Pc F → Prop
  | .start => ∃ ts, cell = ⟨ts, none⟩ ∧ Mine h i ts ∧ Goes h i D ts []
  | .loop d => ∃ ts, cell = ⟨ts, none⟩ ∧ Mine h i ts ∧ Goes h i D ts d
  | .pop d => ∃ t ts, cell = ⟨t :: ts, none⟩ ∧ Mine h i (t :: ts) ∧ Goes h i D (t :: ts) d
  | .test d c j => ∃ ts, cell = ⟨ts, none⟩ ∧ Mine h i (.pair c j :: ts) ∧ Goes h i D (.pair c j :: ts) d
  | .items d c j => ∃ ts dj, cell = ⟨ts, none⟩ ∧ Mine h i (.pair c j :: ts) ∧
      Goes h i D (.pair c j :: ts) d ∧ h[j]? = some (.dict dj)
  | .load d c j => ∃ ts tj, cell = ⟨ts, none⟩ ∧ Mine h i (.pair c j :: ts) ∧
      Goes h i D (.pair c j :: ts) d ∧ h[j]? = some (.terms tj)
  | .iter d c j k => ∃ ts tj ts', cell = ⟨ts, none⟩ ∧ Mine h i (.pair c j :: ts) ∧
      h[j]? = some (.terms tj) ∧ pushScaled c (tj.reverse.drop k) ts = (ts', true) ∧ Goes h i D ts' d
  | .append d c j k p n => ∃ ts tj ts' f, cell = ⟨ts, none⟩ ∧ Mine h i (.pair c j :: ts) ∧
      h[j]? = some (.terms tj) ∧ tj.reverse[k]? = some (.pair f n) ∧ p = c * f ∧
      pushScaled c (tj.reverse.drop k) ts = (ts', true) ∧ Goes h i D ts' d
  | .assign d => cell = ⟨[], none⟩ ∧ d = D
  | .clear => ∃ ts, cell = ⟨ts, some D⟩
  | .ret => ∃ ts, cell = ⟨ts, some D⟩
  | .done r => (∃ ts, cell = ⟨ts, some D⟩) ∧ r = .ok D

/-- Steps that remain to be done. -/
def Pc.left (cs : List Nat) (init : List (Item F)) (h : Heap F) (cell : TCell F) : Pc F → Nat
  | .start => 8 * itemsCost cs init + 5
  | .loop _ => (8 * itemsCost cs cell.items - 2 * cell.items.length) + 4
  | .pop _ => (8 * itemsCost cs cell.items - 2 * cell.items.length) + 3
  | .test _ _ j => (8 * itemsCost cs cell.items - 2 * cell.items.length) + 8 * (cs[j]?).getD 0 + 8
  | .items _ _ j => (8 * itemsCost cs cell.items - 2 * cell.items.length) + 8 * (cs[j]?).getD 0 + 7
  | .load _ _ j => (8 * itemsCost cs cell.items - 2 * cell.items.length) + 8 * (cs[j]?).getD 0 + 7
  | .iter _ _ j k =>
    match h[j]? with
    | some (.terms tj) => (8 * itemsCost cs cell.items - 2 * cell.items.length)
        + 8 * itemsCost cs (tj.reverse.drop k) + 6
    | _ => 0
  | .append _ _ j k _ _ =>
    match h[j]? with
    | some (.terms tj) => (8 * itemsCost cs cell.items - 2 * cell.items.length)
        + 8 * itemsCost cs (tj.reverse.drop k) + 5
    | _ => 0
  | .assign _ => 3
  | .clear => 2
  | .ret => 1
  | .done _ => 0

theorem two_len_le (cs : List Nat) (ts : List (Item F)) : 2 * ts.length ≤ 8 * itemsCost cs ts := by
  induction ts with
  | nil => simp
  | cons t ts ih => cases t <;> simp only [itemsCost, List.length_cons] <;> omega

theorem Goes.lt {h : Heap F} {i : NodeId} {D d : Derivs F} {ts : List (Item F)} (hi : i < h.length)
    (hg : Goes h i D ts d) : (ts = [] → d = D) ∧ ∀ c j ts', ts = .pair c j :: ts' → i ≠ j →
      (∀ dj, h[j]? = some (.dict dj) → Goes h i D ts' (addScaled c dj d)) ∧
      (∀ tj, h[j]? = some (.terms tj) → ∃ ts'', pushScaled c tj.reverse ts' = (ts'', true) ∧
        Goes h i D ts'' d) := by
  obtain ⟨fuel, hf⟩ := hg
  cases fuel with
  | zero => simp [expandLoop] at hf
  | succ fuel =>
    have hget : ∀ ts : List (Item F), (h.set i (LC.terms ts))[i]? = some (.terms ts) :=
      fun ts => List.getElem?_set_self hi
    refine ⟨?_, ?_⟩
    · rintro rfl
      simp only [expandLoop, expandStep, hget, List.set_set, Prod.mk.injEq, and_true] at hf
      have := congrArg (fun l => l[i]?) hf
      simpa [List.getElem?_set_self hi] using this
    · rintro c j ts' rfl hne
      have hj : ∀ ts : List (Item F), ((h.set i (LC.terms ts)))[j]? = h[j]? := by
        intro ts
        rw [List.getElem?_set_ne hne]
      refine ⟨?_, ?_⟩
      · intro dj hdj
        refine ⟨fuel, ?_⟩
        simp only [expandLoop, expandStep, hget, List.set_set, hj, hdj] at hf
        exact hf
      · intro tj htj
        simp only [expandLoop, expandStep, hget, List.set_set, hj, htj] at hf
        revert hf
        generalize pushScaled c tj.reverse ts' = r
        obtain ⟨ts'', b⟩ := r
        cases b with
        | false => intro hf; simp at hf
        | true => intro hf; exact ⟨ts'', rfl, fuel, hf⟩

/-- Mine is preserved by expansion of an item. -/
theorem Mine.tail {h : Heap F} {i : NodeId} {t : Item F} {ts : List (Item F)} (hm : Mine h i (t :: ts)) :
    Mine h i ts := fun t ht => hm t (by simp [ht])

theorem Mine.head {h : Heap F} {i j : NodeId} {c : F} {ts : List (Item F)}
    (hm : Mine h i (.pair c j :: ts)) : Uses h i j := by
  obtain ⟨c', n, h1, h2⟩ := hm (.pair c j) (by simp)
  cases h1; exact h2

theorem drop_of_get {α : Type} {l : List α} {k : Nat} {a : α} (h : l[k]? = some a) :
    l.drop k = a :: l.drop (k + 1) := by
  obtain ⟨hk, rfl⟩ := List.getElem?_eq_some_iff.mp h
  exact List.drop_eq_getElem_cons hk

/-- One operation of a thread whose objects are not modified by the other threads. -/
theorem TInv.step {h : Heap F} (hw : HeapWF h) {i : NodeId} (hi : i < h.length) {init : List (Item F)}
    (hinit : h[i]? = some (.terms init))
    {D : Derivs F} {cell : TCell F} {pc : Pc F} (hp : TInv h i D cell pc)
    {cells : List (TCell F)} (hc : cells[i]? = some cell)
    (hu : ∀ j, Uses h i j → cells[j]? = (h[j]?).map LC.cell)
    (hstart : ∀ ts, pc = .start → cell = ⟨ts, none⟩ → ts = init) :
    ∃ cell', (pc.step i cells).1 = cells.set i cell' ∧ TInv h i D cell' (pc.step i cells).2 ∧
      ((∀ r, pc ≠ .done r) → (pc.step i cells).2.left (costs h) init h cell' < pc.left (costs h) init h cell) ∧
      (pc.step i cells).2 ≠ .start := by
  have hset : cells.set i cell = cells := by
    apply List.ext_getElem?
    intro k
    by_cases hk : i = k
    · subst hk
      obtain ⟨hl, -⟩ := List.getElem?_eq_some_iff.mp hc
      rw [List.getElem?_set_self hl, hc]
    · rw [List.getElem?_set_ne hk]
  have same : cells = cells.set i cell := hset.symm
  cases pc with
  | start =>
    obtain ⟨ts, rfl, hm, hg⟩ := hp
    have := hstart ts rfl rfl
    subst this
    have h3 := two_len_le (costs h) ts
    refine ⟨⟨ts, none⟩, ?_, ?_, ?_, ?_⟩
    · simp only [Pc.step, hc]; exact same
    · simp only [Pc.step, hc]; exact ⟨ts, rfl, hm, hg⟩
    · intro _; simp only [Pc.step, hc, Pc.left]; omega
    · simp [Pc.step, hc]
  | loop d =>
    obtain ⟨ts, rfl, hm, hg⟩ := hp
    cases ts with
    | nil =>
      refine ⟨⟨[], none⟩, ?_, ?_, ?_, ?_⟩
      · simp only [Pc.step, hc]; exact same
      · simp only [Pc.step, hc]; exact ⟨rfl, (hg.lt hi).1 rfl⟩
      · intro _; simp [Pc.step, hc, Pc.left]
      · simp [Pc.step, hc]
    | cons t ts =>
      refine ⟨⟨t :: ts, none⟩, ?_, ?_, ?_, ?_⟩
      · simp only [Pc.step, hc]; exact same
      · simp only [Pc.step, hc]; exact ⟨t, ts, rfl, hm, hg⟩
      · intro _; simp only [Pc.step, hc, Pc.left]; omega
      · simp [Pc.step, hc]
  | pop d =>
    obtain ⟨t, ts, rfl, hm, hg⟩ := hp
    obtain ⟨c, n, rfl, hn⟩ := hm t (by simp)
    have h3 := two_len_le (costs h) ts
    refine ⟨⟨ts, none⟩, ?_, ?_, ?_, ?_⟩
    · simp only [Pc.step, hc]
    · simp only [Pc.step, hc]; exact ⟨ts, rfl, hm, hg⟩
    · intro _; simp only [Pc.step, hc, Pc.left, itemsCost, List.length_cons]; omega
    · simp [Pc.step, hc]
  | test d c j =>
    obtain ⟨ts, rfl, hm, hg⟩ := hp
    have hj := hu j hm.head
    have hjl : j < h.length := (hm.head.lt hw).trans hi
    have hgj : h[j]? = some h[j] := List.getElem?_eq_getElem hjl
    cases hcj : h[j] with
    | dict dj =>
      rw [hcj] at hgj
      rw [hgj] at hj
      simp only [Option.map_some, LC.cell] at hj
      refine ⟨⟨ts, none⟩, ?_, ?_, ?_, ?_⟩
      · simp only [Pc.step, hj]; exact same
      · simp only [Pc.step, hj]; exact ⟨ts, dj, rfl, hm, hg, hgj⟩
      · intro _; simp only [Pc.step, hj, Pc.left]; omega
      · simp [Pc.step, hj]
    | terms tj =>
      rw [hcj] at hgj
      rw [hgj] at hj
      simp only [Option.map_some, LC.cell] at hj
      refine ⟨⟨ts, none⟩, ?_, ?_, ?_, ?_⟩
      · simp only [Pc.step, hj]; exact same
      · simp only [Pc.step, hj]; exact ⟨ts, tj, rfl, hm, hg, hgj⟩
      · intro _; simp only [Pc.step, hj, Pc.left]; omega
      · simp [Pc.step, hj]
  | items d c j =>
    obtain ⟨ts, dj, rfl, hm, hg, hgj⟩ := hp
    have hj := hu j hm.head
    rw [hgj] at hj
    simp only [Option.map_some, LC.cell] at hj
    refine ⟨⟨ts, none⟩, ?_, ?_, ?_, ?_⟩
    · simp only [Pc.step, hj]; exact same
    · simp only [Pc.step, hj]
      exact ⟨ts, rfl, hm.tail, ((hg.lt hi).2 c j ts rfl (hm.head.lt hw).ne').1 dj hgj⟩
    · intro _; simp only [Pc.step, hj, Pc.left]; omega
    · simp [Pc.step, hj]
  | load d c j =>
    obtain ⟨ts, tj, rfl, hm, hg, hgj⟩ := hp
    have hj := hu j hm.head
    rw [hgj] at hj
    simp only [Option.map_some, LC.cell] at hj
    obtain ⟨ts'', h1, h2⟩ := ((hg.lt hi).2 c j ts rfl (hm.head.lt hw).ne').2 tj hgj
    refine ⟨⟨ts, none⟩, ?_, ?_, ?_, ?_⟩
    · simp only [Pc.step, hj]; exact same
    · simp only [Pc.step, hj]
      exact ⟨ts, tj, ts'', rfl, hm, hgj, by simpa using h1, h2⟩
    · intro _
      have h4 := costs_spec h hw j _ hgj
      simp only [nodeCost] at h4
      have h5 : itemsCost (costs h) tj.reverse = itemsCost (costs h) tj := by
        clear h1 h4 hgj hj
        induction tj with
        | nil => rfl
        | cons t tj ih =>
          rw [List.reverse_cons, itemsCost_append, ih]
          cases t <;> simp [itemsCost] <;> omega
      simp only [Pc.step, hj, Pc.left, hgj, h4, List.drop_zero, Option.getD_some, h5]
      omega
    · simp [Pc.step, hj]
  | iter d c j k =>
    obtain ⟨ts, tj, ts', rfl, hm, hgj, hps, hg⟩ := hp
    have hj := hu j hm.head
    rw [hgj] at hj
    simp only [Option.map_some, LC.cell] at hj
    cases hk : tj.reverse[k]? with
    | none =>
      have hdrop : tj.reverse.drop k = [] := by
        apply List.drop_eq_nil_of_le
        exact List.getElem?_eq_none_iff.mp hk
      rw [hdrop] at hps
      simp only [pushScaled, Prod.mk.injEq, and_true] at hps
      subst hps
      refine ⟨⟨ts, none⟩, ?_, ?_, ?_, ?_⟩
      · simp only [Pc.step, hj, hk]; exact same
      · simp only [Pc.step, hj, hk]; exact ⟨ts, rfl, hm.tail, hg⟩
      · intro _
        simp only [Pc.step, hj, hk, Pc.left, hgj]
        omega
      · simp [Pc.step, hj, hk]
    | some t =>
      have hmem : t ∈ tj := by
        have := List.mem_of_getElem? hk
        simpa using this
      obtain ⟨f, n, rfl, hn⟩ := hw j tj hgj _ hmem
      refine ⟨⟨ts, none⟩, ?_, ?_, ?_, ?_⟩
      · simp only [Pc.step, hj, hk]; exact same
      · simp only [Pc.step, hj, hk]
        exact ⟨ts, tj, ts', f, rfl, hm, hgj, hk, rfl, hps, hg⟩
      · intro _
        simp only [Pc.step, hj, hk, Pc.left, hgj]
        omega
      · simp [Pc.step, hj, hk]
  | append d c j k p n =>
    obtain ⟨ts, tj, ts', f, rfl, hm, hgj, hk, rfl, hps, hg⟩ := hp
    have hdrop := drop_of_get hk
    have hmem : (Item.pair f n : Item F) ∈ tj := by
      have := List.mem_of_getElem? hk
      simpa using this
    have hn : Uses h i n := hm.head.step hgj hmem
    rw [hdrop] at hps
    simp only [pushScaled] at hps
    refine ⟨⟨.pair (c * f) n :: ts, none⟩, ?_, ?_, ?_, ?_⟩
    · simp only [Pc.step, hc]
    · simp only [Pc.step, hc]
      refine ⟨_, tj, ts', rfl, ?_, hgj, hps, hg⟩
      intro t ht
      simp only [List.mem_cons] at ht
      rcases ht with rfl | rfl | ht
      · exact ⟨c, j, rfl, hm.head⟩
      · exact ⟨_, _, rfl, hn⟩
      · exact hm.tail t ht
    · intro _
      have h3 := two_len_le (costs h) ts
      simp only [Pc.step, hc, Pc.left, hgj, hdrop, itemsCost, List.length_cons]
      omega
    · simp [Pc.step, hc]
  | assign d =>
    obtain ⟨rfl, rfl⟩ := hp
    refine ⟨⟨[], some d⟩, ?_, ?_, ?_, ?_⟩
    · simp only [Pc.step, hc]
    · simp only [Pc.step, hc]; exact ⟨[], rfl⟩
    · intro _; simp [Pc.step, hc, Pc.left]
    · simp [Pc.step, hc]
  | clear =>
    obtain ⟨ts, rfl⟩ := hp
    refine ⟨⟨ts, some D⟩, ?_, ?_, ?_, ?_⟩
    · simp only [Pc.step, hc]; exact same
    · simp only [Pc.step, hc]; exact ⟨ts, rfl⟩
    · intro _; simp [Pc.step, hc, Pc.left]
    · simp [Pc.step, hc]
  | ret =>
    obtain ⟨ts, rfl⟩ := hp
    refine ⟨⟨ts, some D⟩, ?_, ?_, ?_, ?_⟩
    · simp only [Pc.step, hc]; exact same
    · simp only [Pc.step, hc]; exact ⟨⟨ts, rfl⟩, rfl⟩
    · intro _; simp [Pc.step, hc, Pc.left]
    · simp [Pc.step, hc]
  | done r =>
    refine ⟨cell, same, hp, ?_, ?_⟩
    · intro h; exact absurd rfl (h r)
    · simp [Pc.step]

end Unc

namespace Unc

set_option linter.unusedSectionVars false
set_option autoImplicit false

variable {F : Type} [PyFloat F]

theorem TInv.left_pos {h : Heap F} {i : NodeId} {init : List (Item F)} {D : Derivs F} {cell : TCell F}
    {pc : Pc F} (hp : TInv h i D cell pc) (hl : pc.left (costs h) init h cell = 0) : pc = .done (.ok D) := by
  cases pc with
  | iter d c j k =>
    obtain ⟨ts, tj, ts', rfl, hm, hgj, -⟩ := hp
    simp [Pc.left, hgj] at hl
  | append d c j k p n =>
    obtain ⟨ts, tj, ts', f, rfl, hm, hgj, -⟩ := hp
    simp [Pc.left, hgj] at hl
  | done r => rw [hp.2]
  | _ => simp [Pc.left] at hl

/-- Invariant of one thread; `n` bounds the number of operations that it still has to do. -/
def ThInv (h : Heap F) (cells : List (TCell F)) (u : UF F) (pc : Pc F) (n : Nat) : Prop :=
  (∃ init D cell, h[u.lin]? = some (.terms init) ∧
    readDerivs h u.lin = (h.set u.lin (.dict D), .ok D) ∧ cells[u.lin]? = some cell ∧
    TInv h u.lin D cell pc ∧ (pc = .start → cell = ⟨init, none⟩) ∧ pc.left (costs h) init h cell ≤ n) ∨
  (∃ D, h[u.lin]? = some (.dict D) ∧ (pc = .start ∧ 2 ≤ n ∨ pc = .ret ∧ 1 ≤ n ∨ pc = .done (.ok D)))

/-- Invariant of all the threads. -/
structure RInv (h : Heap F) (us : List (UF F)) (r : Race F) (n : Nat → Nat) : Prop where
  len : r.cells.length = h.length
  thr : ∀ (t : Nat) u, us[t]? = some u → ∃ pc, r.threads[t]? = some ⟨u, pc⟩ ∧ ThInv h r.cells u pc (n t)
  none : ∀ t : Nat, us[t]? = Option.none → r.threads[t]? = Option.none
  out : ∀ k, (∀ (t : Nat) u, us[t]? = some u → u.lin = k → ¬ Fresh h k) →
    r.cells[k]? = (h[k]?).map LC.cell

theorem RInv.init {h : Heap F} (hw : HeapWF h) {us : List (UF F)} (hus : ∀ u ∈ us, u.lin < h.length) :
    ∃ n, RInv h us ⟨h.map LC.cell, us.map fun u => ⟨u, .start⟩⟩ n := by
  have key : ∀ t : Nat, ∃ n, ∀ u, us[t]? = some u → ThInv h (h.map LC.cell) u .start n := by
    intro t
    cases ht : us[t]? with
    | none => exact ⟨0, fun u hu => by cases hu⟩
    | some u =>
      have hlen := hus u (List.mem_of_getElem? ht)
      have hg : h[u.lin]? = some h[u.lin] := List.getElem?_eq_getElem hlen
      cases hc : h[u.lin] with
      | dict d =>
        rw [hc] at hg
        refine ⟨2, fun u' hu' => ?_⟩
        cases hu'
        exact Or.inr ⟨d, hg, Or.inl ⟨rfl, le_rfl⟩⟩
      | terms ts =>
        rw [hc] at hg
        obtain ⟨D, hD⟩ := readDerivs_terminates h hw u.lin hlen
        refine ⟨Pc.left (costs h) ts h ⟨ts, Option.none⟩ (.start : Pc F), fun u' hu' => ?_⟩
        cases hu'
        refine Or.inl ⟨ts, D, ⟨ts, Option.none⟩, hg, hD, ?_, ?_, fun _ => rfl, le_rfl⟩
        · simp [hg, LC.cell]
        · refine ⟨ts, rfl, ?_, ?_⟩
          · intro t ht
            obtain ⟨c, m, rfl, -⟩ := hw _ _ hg t ht
            exact ⟨c, m, rfl, .direct hg ht⟩
          · obtain ⟨d', hd'⟩ := expand_terminates h hw u.lin ts hg
            have hset : h.set u.lin (.terms ts) = h := by
              apply List.ext_getElem?
              intro k
              by_cases hk : u.lin = k
              · subst hk; rw [List.getElem?_set_self hlen, hg]
              · rw [List.getElem?_set_ne hk]
            simp only [readDerivs, hg, hd', List.getElem?_set_self hlen, Prod.mk.injEq,
              Except.ok.injEq] at hD
            refine ⟨fuelFor h u.lin, ?_⟩
            rw [hset]
            have := hD.2
            subst this
            exact hd'
  choose n hn using key
  refine ⟨n, ?_, ?_, ?_, ?_⟩
  · simp
  · intro t u hu
    exact ⟨.start, by simp [hu], hn t u hu⟩
  · intro t ht; simp [ht]
  · intro k _; simp

theorem RInv.step {h : Heap F} (hw : HeapWF h) {us : List (UF F)} (hsep : Separate h us) {r : Race F}
    {n : Nat → Nat} (hr : RInv h us r n) (t : Nat) :
    RInv h us (r.step t) (fun t' => if t' = t then n t - 1 else n t') := by
  cases ht : us[t]? with
  | none =>
    have h1 := hr.none t ht
    have h2 : r.step t = r := by simp [Race.step, h1]
    rw [h2]
    refine ⟨hr.len, ?_, hr.none, hr.out⟩
    intro t' u hu
    have : t' ≠ t := by rintro rfl; rw [ht] at hu; cases hu
    simp only [this, if_false]
    exact hr.thr t' u hu
  | some u =>
    obtain ⟨pc, h1, h2⟩ := hr.thr t u ht
    have hstep : r.step t = ⟨(pc.step u.lin r.cells).1, r.threads.set t ⟨u, (pc.step u.lin r.cells).2⟩⟩ := by
      simp [Race.step, h1]
    have htl : t < r.threads.length := (List.getElem?_eq_some_iff.mp h1).1
    have hnone : ∀ t' : Nat, us[t']? = Option.none → (r.threads.set t ⟨u, (pc.step u.lin r.cells).2⟩)[t']? = Option.none := by
      intro t' ht'
      have := hr.none t' ht'
      rw [List.getElem?_eq_none_iff] at this ⊢
      simpa using this
    rcases h2 with ⟨init, D, cell, hi, hD, hc, hp, hst, hl⟩ | ⟨D, hi, hpc⟩
    · -- the thread reads an object for the first time
      have hlen : u.lin < h.length := (List.getElem?_eq_some_iff.mp hi).1
      have hu : ∀ j, Uses h u.lin j → r.cells[j]? = (h[j]?).map LC.cell := by
        intro j hj
        apply hr.out
        rintro t' u' hu' rfl hf
        by_cases htt : t' = t
        · subst htt
          rw [ht] at hu'; cases hu'
          exact absurd (hj.lt hw) (lt_irrefl _)
        · exact (hsep t t' u u' (Ne.symm htt) ht hu' ⟨init, hi⟩ hf).2 hj
      obtain ⟨cell', a1, a2, a3, a4⟩ := hp.step hw hlen hi hc hu (by
        intro ts e1 e2
        have := hst e1
        rw [e2] at this
        cases this; rfl)
      have hcl : u.lin < r.cells.length := (List.getElem?_eq_some_iff.mp hc).1
      rw [hstep]
      refine ⟨?_, ?_, hnone, ?_⟩
      · simp only [a1, List.length_set]; exact hr.len
      · intro t' u' hu'
        by_cases htt : t' = t
        · subst htt
          rw [ht] at hu'; cases hu'
          refine ⟨_, List.getElem?_set_self htl, Or.inl ⟨init, D, cell', hi, hD, ?_, a2, ?_, ?_⟩⟩
          · simp only [a1]; exact List.getElem?_set_self hcl
          · intro e; exact absurd e a4
          · simp only [if_true]
            by_cases hd : ∃ res, pc = .done res
            · obtain ⟨res, rfl⟩ := hd
              simp [Pc.step, Pc.left]
            · have := a3 (fun res e => hd ⟨res, e⟩)
              omega
        · obtain ⟨pc', b1, b2⟩ := hr.thr t' u' hu'
          refine ⟨pc', ?_, ?_⟩
          · simp only [List.getElem?_set_ne (Ne.symm htt)]; exact b1
          · simp only [htt, if_false]
            rcases b2 with ⟨init', D', cell2, c1, c2, c3, c4, c5, c6⟩ | b2
            · refine Or.inl ⟨init', D', cell2, c1, c2, ?_, c4, c5, c6⟩
              have hne := (hsep t t' u u' (Ne.symm htt) ht hu' ⟨init, hi⟩ ⟨init', c1⟩).1
              simp only [a1, List.getElem?_set_ne hne]; exact c3
            · exact Or.inr b2
      · intro k hk
        have hne : u.lin ≠ k := by
          rintro rfl
          exact hk t u ht rfl ⟨init, hi⟩
        simp only [a1, List.getElem?_set_ne hne]
        exact hr.out k hk
    · -- the object has been expanded
      have hlen : u.lin < h.length := (List.getElem?_eq_some_iff.mp hi).1
      have hc : r.cells[u.lin]? = some ⟨[], some D⟩ := by
        rw [hr.out u.lin]
        · simp [hi, LC.cell]
        · rintro t' u' hu' e ⟨ts, hts⟩
          rw [hi] at hts; cases hts
      have hcells : (pc.step u.lin r.cells).1 = r.cells ∧
          ((pc.step u.lin r.cells).2 = .ret ∧ 1 ≤ n t - 1 ∨ (pc.step u.lin r.cells).2 = .done (.ok D)) := by
        rcases hpc with ⟨rfl, hn⟩ | ⟨rfl, hn⟩ | rfl
        · exact ⟨by simp [Pc.step, hc], Or.inl ⟨by simp [Pc.step, hc], by omega⟩⟩
        · exact ⟨by simp [Pc.step, hc], Or.inr (by simp [Pc.step, hc])⟩
        · exact ⟨rfl, Or.inr rfl⟩
      rw [hstep]
      refine ⟨?_, ?_, hnone, ?_⟩
      · simp only [hcells.1]; exact hr.len
      · intro t' u' hu'
        by_cases htt : t' = t
        · subst htt
          rw [ht] at hu'; cases hu'
          refine ⟨_, List.getElem?_set_self htl, Or.inr ⟨D, hi, ?_⟩⟩
          simp only [if_true]
          rcases hcells.2 with h3 | h3
          · exact Or.inr (Or.inl h3)
          · exact Or.inr (Or.inr h3)
        · obtain ⟨pc', b1, b2⟩ := hr.thr t' u' hu'
          refine ⟨pc', ?_, ?_⟩
          · simp only [List.getElem?_set_ne (Ne.symm htt)]; exact b1
          · simp only [htt, if_false, hcells.1]
            exact b2
      · intro k hk
        simp only [hcells.1]
        exact hr.out k hk

theorem RInv.run {h : Heap F} (hw : HeapWF h) {us : List (UF F)} (hsep : Separate h us) {r : Race F}
    {n : Nat → Nat} (hr : RInv h us r n) (sched : List Nat) :
    RInv h us (r.run sched) (fun t => n t - sched.count t) := by
  induction sched generalizing r n with
  | nil => simpa [Race.run] using hr
  | cons t sched ih =>
    have := ih (hr.step hw hsep t)
    have e : (fun t' => (if t' = t then n t - 1 else n t') - sched.count t') =
        fun t' => n t' - (t :: sched).count t' := by
      funext t'
      by_cases htt : t' = t
      · subst htt
        simp
        omega
      · have : ¬ t = t' := fun e => htt e.symm
        simp [htt, List.count_cons, this]
    rw [e] at this
    exact this

/-- What finished threads have read. -/
theorem ThInv.done {h : Heap F} (hw : HeapWF h) {cells : List (TCell F)} {u : UF F} {res : PyRes (Derivs F)} {n : Nat}
    (hp : ThInv h cells u (.done res) n) : ∃ D, readDerivs h u.lin = (h.set u.lin (.dict D), .ok D) ∧
      res = .ok D := by
  rcases hp with ⟨init, D, cell, hi, hD, hc, h1, -⟩ | ⟨D, hi, hpc⟩
  · exact ⟨D, hD, h1.2⟩
  · have hlen : u.lin < h.length := (List.getElem?_eq_some_iff.mp hi).1
    obtain ⟨D', hD'⟩ := readDerivs_terminates h hw u.lin hlen
    have : D' = D := by
      simp only [readDerivs, hi, Prod.mk.injEq, Except.ok.injEq] at hD'
      exact hD'.2.symm
    subst this
    refine ⟨D', hD', ?_⟩
    rcases hpc with ⟨h1, -⟩ | ⟨h1, -⟩ | h1
    · cases h1
    · cases h1
    · cases h1; rfl

/-- Threads finish. -/
theorem ThInv.zero {h : Heap F} {cells : List (TCell F)} {u : UF F} {pc : Pc F}
    (hp : ThInv h cells u pc 0) : ∃ res, pc = .done res := by
  rcases hp with ⟨init, D, cell, hi, hD, hc, h1, -, hl⟩ | ⟨D, hi, hpc⟩
  · exact ⟨_, h1.left_pos (Nat.le_zero.mp hl)⟩
  · rcases hpc with ⟨-, h1⟩ | ⟨-, h1⟩ | h1
    · omega
    · omega
    · exact ⟨_, h1⟩

/-- The objects when all the threads are finished. -/
theorem RInv.finished {h : Heap F} {us : List (UF F)} {r : Race F} {n : Nat → Nat} (hr : RInv h us r n)
    (hd : ∀ (t : Nat) u pc, r.threads[t]? = some ⟨u, pc⟩ → ∃ res, pc = .done res) (k : NodeId) :
    r.heap[k]? = h[k]? ∨ ∃ D, r.heap[k]? = some (.dict D) ∧ readDerivs h k = (h.set k (.dict D), .ok D) := by
  by_cases hk : ∀ (t : Nat) u, us[t]? = some u → u.lin = k → ¬ Fresh h k
  · left
    have := hr.out k hk
    simp only [Race.heap, List.getElem?_map, this, Option.map_map]
    have e : (TCell.lc ∘ LC.cell : LC F → LC F) = _root_.id := by
      funext lc; cases lc <;> rfl
    rw [e]; simp
  · push Not at hk
    obtain ⟨t, u, hu, rfl, ts, hts⟩ := hk
    obtain ⟨pc, h1, h2⟩ := hr.thr t u hu
    obtain ⟨res, rfl⟩ := hd t u pc h1
    right
    rcases h2 with ⟨init, D, cell, hi, hD, hc, h3, -⟩ | ⟨D, hi, -⟩
    · obtain ⟨⟨ts', rfl⟩, -⟩ := h3
      refine ⟨D, ?_, hD⟩
      simp [Race.heap, List.getElem?_map, hc, TCell.lc]
    · rw [hi] at hts; cases hts

end Unc

namespace Unc

set_option linter.unusedSectionVars false
set_option autoImplicit false

variable {F : Type} [PyFloat F]

/-! ### Reading an object depends only on the objects that it uses -/

theorem Uses.congr {h h' : Heap F} {y : NodeId} (hy : h'[y]? = h[y]?)
    (hu : ∀ j, Uses h y j → h'[j]? = h[j]?) {j : NodeId} (hj : Uses h' y j) : Uses h y j := by
  induction hj with
  | direct h1 h2 => exact .direct (hy ▸ h1) h2
  | step _ h1 h2 ih => exact ih.step ((hu _ ih) ▸ h1) h2

theorem Goes.frame {h h' : Heap F} (hw : HeapWF h) {y : NodeId} (hy : y < h.length) (hy' : y < h'.length)
    (hu : ∀ j, Uses h y j → h'[j]? = h[j]?) {D : Derivs F} (fuel : Nat) {ts : List (Item F)} {d : Derivs F}
    (hm : Mine h y ts)
    (hg : expandLoop fuel (h.set y (.terms ts)) y d = (h.set y (.dict D), .ok ())) :
    expandLoop fuel (h'.set y (.terms ts)) y d = (h'.set y (.dict D), .ok ()) := by
  induction fuel generalizing ts d with
  | zero => simp [expandLoop] at hg
  | succ fuel ih =>
    have hget : ∀ ts : List (Item F), (h.set y (LC.terms ts))[y]? = some (.terms ts) :=
      fun ts => List.getElem?_set_self hy
    have hget' : ∀ ts : List (Item F), (h'.set y (LC.terms ts))[y]? = some (.terms ts) :=
      fun ts => List.getElem?_set_self hy'
    cases ts with
    | nil =>
      simp only [expandLoop, expandStep, hget, List.set_set, Prod.mk.injEq, and_true] at hg
      have hdD : d = D := by
        have := congrArg (fun l => l[y]?) hg
        simpa [List.getElem?_set_self hy] using this
      subst hdD
      simp only [expandLoop, expandStep, hget', List.set_set]
    | cons t ts =>
      obtain ⟨c, j, rfl, huj⟩ := hm t (by simp)
      have hne : y ≠ j := (huj.lt hw).ne'
      have hj : ∀ ts : List (Item F), ((h.set y (LC.terms ts)))[j]? = h[j]? :=
        fun ts => by rw [List.getElem?_set_ne hne]
      have hj' : ∀ ts : List (Item F), ((h'.set y (LC.terms ts)))[j]? = h[j]? :=
        fun ts => by rw [List.getElem?_set_ne hne, hu j huj]
      have hjl : j < h.length := (huj.lt hw).trans hy
      have hgj : h[j]? = some h[j] := List.getElem?_eq_getElem hjl
      cases hcj : h[j] with
      | dict dj =>
        rw [hcj] at hgj
        simp only [expandLoop, expandStep, hget, List.set_set, hj, hgj] at hg
        simp only [expandLoop, expandStep, hget', List.set_set, hj', hgj]
        exact ih hm.tail hg
      | terms tj =>
        rw [hcj] at hgj
        have hb := hw j tj hgj
        simp only [expandLoop, expandStep, hget, List.set_set, hj, hgj, pushScaled_reverse c j tj ts hb] at hg
        simp only [expandLoop, expandStep, hget', List.set_set, hj', hgj, pushScaled_reverse c j tj ts hb]
        apply ih ?_ hg
        intro t ht
        rcases List.mem_append.mp ht with ht | ht
        · obtain ⟨t0, h0, rfl⟩ := List.mem_map.mp ht
          obtain ⟨f, n, rfl, -⟩ := hb t0 h0
          exact ⟨_, n, rfl, huj.step hgj h0⟩
        · exact hm.tail t ht

theorem expandLoop_mono {h : Heap F} {i : NodeId} {d : Derivs F} {h' : Heap F} (fuel n : Nat)
    (hl : expandLoop fuel h i d = (h', .ok ())) : expandLoop (fuel + n) h i d = (h', .ok ()) := by
  induction fuel generalizing h d with
  | zero => simp [expandLoop] at hl
  | succ fuel ih =>
    rw [Nat.add_right_comm]
    simp only [expandLoop] at hl ⊢
    revert hl
    generalize expandStep h i d = r
    obtain ⟨h1, o⟩ := r
    cases o with
    | done => exact fun h => h
    | go d' => exact fun h => ih h
    | raise e => intro h; simp at h

theorem readDerivs_frame {h h' : Heap F} (hw : HeapWF h) (hw' : HeapWF h') {y : NodeId} (hy : y < h.length)
    (hye : h'[y]? = h[y]?) (hu : ∀ j, Uses h y j → h'[j]? = h[j]?) :
    ∃ D, readDerivs h y = (h.set y (.dict D), .ok D) ∧ readDerivs h' y = (h'.set y (.dict D), .ok D) := by
  have hgy : h[y]? = some h[y] := List.getElem?_eq_getElem hy
  have hy' : y < h'.length := by
    rw [hgy] at hye
    exact (List.getElem?_eq_some_iff.mp hye).1
  obtain ⟨D, hD⟩ := readDerivs_terminates h hw y hy
  obtain ⟨D', hD'⟩ := readDerivs_terminates h' hw' y hy'
  refine ⟨D, hD, ?_⟩
  suffices D' = D by rw [← this]; exact hD'
  cases hc : h[y] with
  | dict d =>
    rw [hc] at hgy
    have hgy' := hye.trans hgy
    simp only [readDerivs, hgy, Prod.mk.injEq, Except.ok.injEq] at hD
    simp only [readDerivs, hgy', Prod.mk.injEq, Except.ok.injEq] at hD'
    rw [← hD.2, ← hD'.2]
  | terms ts =>
    rw [hc] at hgy
    have hgy' := hye.trans hgy
    have hset : ∀ {k : Heap F}, y < k.length → k[y]? = some (.terms ts) → k.set y (.terms ts) = k := by
      intro k hk e
      apply List.ext_getElem?
      intro j
      by_cases hj : y = j
      · subst hj; rw [List.getElem?_set_self hk, e]
      · rw [List.getElem?_set_ne hj]
    obtain ⟨d1, h1⟩ := expand_terminates h hw y ts hgy
    obtain ⟨d2, h2⟩ := expand_terminates h' hw' y ts hgy'
    simp only [readDerivs, hgy, h1, List.getElem?_set_self hy, Prod.mk.injEq, Except.ok.injEq] at hD
    simp only [readDerivs, hgy', h2, List.getElem?_set_self hy', Prod.mk.injEq, Except.ok.injEq] at hD'
    rw [← hD.2, ← hD'.2]
    unfold expand at h1 h2
    have h3 : expandLoop (fuelFor h y) h' y [] = (h'.set y (.dict d1), .ok ()) := by
      have := Goes.frame (h' := h') hw hy hy' hu (fuelFor h y) (ts := ts) (d := []) (D := d1)
        (by
          intro t ht
          obtain ⟨c, n, rfl, -⟩ := hw y ts hgy t ht
          exact ⟨c, n, rfl, .direct hgy ht⟩) (by rw [hset hy hgy]; exact h1)
      rwa [hset hy' hgy'] at this
    have h4 := expandLoop_mono _ (fuelFor h' y) h3
    have h5 := expandLoop_mono _ (fuelFor h y) h2
    rw [Nat.add_comm] at h5
    rw [h4] at h5
    simp only [Prod.mk.injEq, and_true] at h5
    have := congrArg (fun l => l[y]?) h5
    simpa [List.getElem?_set_self hy'] using this.symm

/-! ### One thread, stopped at any point -/

/-- The cell of the object that the thread reads. -/
theorem TInv.cell {h : Heap F} {i : NodeId} {D : Derivs F} {cell : TCell F} {pc : Pc F}
    (hp : TInv h i D cell pc) : (∃ ts, cell = ⟨ts, none⟩ ∧ Mine h i ts) ∨ ∃ ts, cell = ⟨ts, some D⟩ := by
  cases pc with
  | start => obtain ⟨ts, rfl, hm, -⟩ := hp; exact .inl ⟨ts, rfl, hm⟩
  | loop d => obtain ⟨ts, rfl, hm, -⟩ := hp; exact .inl ⟨ts, rfl, hm⟩
  | pop d => obtain ⟨t, ts, rfl, hm, -⟩ := hp; exact .inl ⟨t :: ts, rfl, hm⟩
  | test d c j => obtain ⟨ts, rfl, hm, -⟩ := hp; exact .inl ⟨ts, rfl, hm.tail⟩
  | items d c j => obtain ⟨ts, dj, rfl, hm, -⟩ := hp; exact .inl ⟨ts, rfl, hm.tail⟩
  | load d c j => obtain ⟨ts, dj, rfl, hm, -⟩ := hp; exact .inl ⟨ts, rfl, hm.tail⟩
  | iter d c j k => obtain ⟨ts, tj, ts', rfl, hm, -⟩ := hp; exact .inl ⟨ts, rfl, hm.tail⟩
  | append d c j k p n => obtain ⟨ts, tj, ts', f, rfl, hm, -⟩ := hp; exact .inl ⟨ts, rfl, hm.tail⟩
  | assign d => obtain ⟨rfl, -⟩ := hp; exact .inl ⟨[], rfl, by intro t ht; simp at ht⟩
  | clear => exact .inr hp
  | ret => exact .inr hp
  | done r => exact .inr hp.1

theorem lc_cell (h : Heap F) : (h.map LC.cell).map TCell.lc = h := by
  rw [List.map_map]
  have e : (TCell.lc ∘ LC.cell : LC F → LC F) = _root_.id := by
    funext lc; cases lc <;> rfl
  rw [e]; simp

theorem Separate.one (h : Heap F) (u : UF F) : Separate h [u] := by
  intro t t' u1 u2 hne h1 h2
  have a := (List.getElem?_eq_some_iff.mp h1).1
  have b := (List.getElem?_eq_some_iff.mp h2).1
  simp at a b
  omega

/-- The objects, when a thread is stopped. -/
theorem RInv.one {h : Heap F} (hw : HeapWF h) {u : UF F} {r : Race F} {n : Nat → Nat}
    (hr : RInv h [u] r n) :
    HeapWF r.heap ∧ (∀ k, k ≠ u.lin ∨ ¬ Fresh h k → r.heap[k]? = h[k]?) ∧ r.heap.length = h.length := by
  have hout : ∀ k, k ≠ u.lin ∨ ¬ Fresh h k → r.heap[k]? = h[k]? := by
    intro k hk
    have h1 := hr.out k (by
      intro t u' hu' e
      have hmem := List.mem_of_getElem? hu'
      simp at hmem
      subst hmem
      rcases hk with hk | hk
      · exact absurd e.symm hk
      · exact hk)
    have h2 := congrArg (fun l => l[k]?) (lc_cell h)
    simp only [List.getElem?_map] at h2
    simp only [Race.heap, List.getElem?_map, h1]
    exact h2
  refine ⟨?_, hout, by simp only [Race.heap, List.length_map]; exact hr.len⟩
  intro k ts hk
  by_cases hku : k ≠ u.lin ∨ ¬ Fresh h k
  · rw [hout k hku] at hk; exact hw k ts hk
  · push Not at hku
    obtain ⟨rfl, ts0, hts0⟩ := hku
    obtain ⟨pc, -, h2⟩ := hr.thr 0 u rfl
    rcases h2 with ⟨init, D, cell, hi, hD, hc, h3, -⟩ | ⟨D, hi, -⟩
    · simp only [Race.heap, List.getElem?_map, hc, Option.map_some, Option.some.injEq] at hk
      rcases h3.cell with ⟨ts', rfl, hm⟩ | ⟨ts', rfl⟩
      · simp only [TCell.lc, LC.terms.injEq] at hk
        subst hk
        intro t ht
        obtain ⟨c, m, rfl, hm⟩ := hm t ht
        exact ⟨c, m, rfl, hm.lt hw⟩
      · simp [TCell.lc] at hk
    · rw [hi] at hts0; cases hts0

end Unc
