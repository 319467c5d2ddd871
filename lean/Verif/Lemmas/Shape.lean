import Verif.Lemmas.Wrap
import Verif.Lemmas.LinComb
import Verif.Model.Machine
import Verif.Spec.World

/-
Invariant of the program state for any float semantics (no law of arithmetic is used): references
are valid, `LinearCombination` objects refer to older objects, wrapped functions have consistent
caches.
-/

namespace Unc

set_option linter.unusedSectionVars false
set_option autoImplicit false

section floats
variable {F : Type} [PyFloat F]

/-- The invariant. -/
structure Shape (w : World F) : Prop where
  heap : HeapWF w.nodes
  keys : ∀ (i : NodeId) (d : Derivs F), w.nodes[i]? = some (.dict d) →
    ∀ v ∈ d.map Prod.fst, v < w.vars.length
  vars : ∀ (v : VarId) (cell : VarCell F), w.vars[v]? = some cell →
    w.nodes[cell.lin]? = some (.dict [(v, 1)])
  std : ∀ (v : VarId) (cell : VarCell F), w.vars[v]? = some cell → specBadStd cell.std = false
  wraps : ∀ (fid : Nat) (wf : Wrapped F), w.wraps[fid]? = some wf → wf.OK

/-- An object is valid. -/
def UF.Valid (w : World F) (u : UF F) : Prop :=
  u.lin < w.nodes.length ∧
  ∀ v, u.var = some v → ∃ cell, w.vars[v]? = some cell ∧ cell.lin = u.lin ∧ cell.nom = u.nom

def Val.Valid (w : World F) : Val F → Prop
  | .unc u => u.Valid w
  | .plain _ => True

/-- Evolution of the state: existing objects remain valid. -/
structure Grows (w w' : World F) : Prop where
  shape : Shape w'
  len : w.nodes.length ≤ w'.nodes.length
  vars : ∀ (v : VarId) (c : VarCell F), w.vars[v]? = some c →
    ∃ c', w'.vars[v]? = some c' ∧ c'.lin = c.lin ∧ c'.nom = c.nom
  fns : w'.wraps.map Wrapped.df = w.wraps.map Wrapped.df

/-- Evolution that does not change the variables. -/
structure Reads (w w' : World F) : Prop where
  shape : Shape w'
  len : w.nodes.length ≤ w'.nodes.length
  vars : w'.vars = w.vars
  fns : w'.wraps.map Wrapped.df = w.wraps.map Wrapped.df

theorem Reads.grows {w w' : World F} (h : Reads w w') : Grows w w' :=
  ⟨h.shape, h.len, fun v c hc => ⟨c, by rw [h.vars]; exact hc, rfl, rfl⟩, h.fns⟩

theorem Reads.refl {w : World F} (h : Shape w) : Reads w w := ⟨h, Nat.le_refl _, rfl, rfl⟩

theorem Reads.trans {w w' w'' : World F} (h : Reads w w') (h' : Reads w' w'') : Reads w w'' :=
  ⟨h'.shape, h.len.trans h'.len, h'.vars.trans h.vars, h'.fns.trans h.fns⟩

theorem Grows.refl {w : World F} (h : Shape w) : Grows w w := (Reads.refl h).grows

theorem Grows.trans {w w' w'' : World F} (h : Grows w w') (h' : Grows w' w'') : Grows w w'' := by
  refine ⟨h'.shape, h.len.trans h'.len, fun v c hc => ?_, h'.fns.trans h.fns⟩
  obtain ⟨c1, a1, a2, a3⟩ := h.vars v c hc
  obtain ⟨c2, b1, b2, b3⟩ := h'.vars v c1 a1
  exact ⟨c2, b1, b2.trans a2, b3.trans a3⟩

theorem UF.Valid.grows {w w' : World F} (h : Grows w w') {u : UF F} (hu : u.Valid w) : u.Valid w' := by
  refine ⟨Nat.lt_of_lt_of_le hu.1 h.len, fun v hv => ?_⟩
  obtain ⟨c, h1, h2, h3⟩ := hu.2 v hv
  obtain ⟨c', a1, a2, a3⟩ := h.vars v c h1
  exact ⟨c', a1, a2.trans h2, a3.trans h3⟩

theorem Val.Valid.grows {w w' : World F} (h : Grows w w') {x : Val F} (hx : x.Valid w) :
    x.Valid w' := by
  cases x with
  | plain _ => trivial
  | unc u => exact UF.Valid.grows h hx

/-! ### Reading derivatives -/

/-- The keys of the result come from the heap. -/
theorem expandLoop_keys (n : Nat) (fuel : Nat) (h : Heap F) (i : NodeId)
    (d : Derivs F) (ts : List (Item F)) (hi : h[i]? = some (.terms ts)) (hw : HeapWF h)
    (hk : ∀ (j : NodeId) (d : Derivs F), h[j]? = some (.dict d) → ∀ v ∈ d.map Prod.fst, v < n)
    (hd : ∀ v ∈ d.map Prod.fst, v < n)
    (d' : Derivs F) (hres : expandLoop fuel h i d = (h.set i (.dict d'), .ok ())) :
    ∀ v ∈ d'.map Prod.fst, v < n := by
  induction fuel generalizing h d ts with
  | zero => simp [expandLoop] at hres
  | succ fuel ih =>
    have hlen : i < h.length := by rw [List.getElem?_eq_some_iff] at hi; exact hi.1
    have hb := hw i ts hi
    cases ts with
    | nil =>
      have : d = d' := by
        simp only [expandLoop, expandStep, hi, Prod.mk.injEq, and_true] at hres
        have := congrArg (fun l => l[i]?) hres
        simpa [List.getElem?_set_self hlen] using this
      subst this
      exact hd
    | cons t ts =>
      obtain ⟨c, j, rfl, hj⟩ := hb t (by simp)
      have hb' : ItemsBelow i ts := fun t ht => hb t (by simp [ht])
      have hjlen : j < h.length := by omega
      have hne : i ≠ j := by omega
      have hget : (h.set i (LC.terms ts))[j]? = some h[j] := by
        rw [List.getElem?_set_ne hne, List.getElem?_eq_getElem hjlen]
      have hgetj : h[j]? = some h[j] := List.getElem?_eq_getElem hjlen
      have hwf : ∀ ts', ItemsBelow i ts' → HeapWF (h.set i (LC.terms ts')) := by
        intro ts' hb k us hk
        by_cases hki : i = k
        · subst hki
          rw [List.getElem?_set_self hlen] at hk
          cases hk; exact hb
        · rw [List.getElem?_set_ne hki] at hk
          exact hw k us hk
      have hks : ∀ ts', ∀ (j : NodeId) (d : Derivs F), (h.set i (LC.terms ts'))[j]? = some (.dict d) →
          ∀ v ∈ d.map Prod.fst, v < n := by
        intro ts' k d hk'
        by_cases hki : i = k
        · subst hki
          rw [List.getElem?_set_self hlen] at hk'
          cases hk'
        · rw [List.getElem?_set_ne hki] at hk'
          exact hk k d hk'
      cases hj' : h[j] with
      | dict dj =>
        rw [hj'] at hgetj
        simp only [expandLoop, expandStep, hi, hget, hj'] at hres
        refine ih (h.set i (LC.terms ts)) _ ts (List.getElem?_set_self hlen) (hwf ts hb') (hks ts) ?_
          (by rw [hres, List.set_set])
        intro v hv
        rcases (mem_keys_addScaled c dj d v).mp hv with h1 | h1
        · exact hk j dj hgetj v h1
        · exact hd v h1
      | terms tj =>
        rw [hj'] at hgetj
        have hbj := hw j tj hgetj
        simp only [expandLoop, expandStep, hi, hget, hj',
          pushScaled_reverse c j tj ts hbj, List.set_set] at hres
        exact ih (h.set i (LC.terms (tj.map (scaleItem c) ++ ts))) d _
          (List.getElem?_set_self hlen)
          (hwf _ (itemsBelow_append (itemsBelow_scale hj.le hbj) hb')) (hks _) hd
          (by rw [hres, List.set_set])

theorem Shape.setDict {w : World F} (h : Shape w) {i : NodeId} {d : Derivs F}
    (hd : ∀ v ∈ d.map Prod.fst, v < w.vars.length)
    (hv : ∀ d0, w.nodes[i]? = some (.dict d0) → d = d0) :
    Shape { w with nodes := w.nodes.set i (.dict d) } := by
  refine ⟨?_, ?_, ?_, h.std, h.wraps⟩
  · intro k ts hk
    simp only at hk
    by_cases hki : i = k
    · subst hki
      rw [List.getElem?_set] at hk
      split at hk
      · split at hk <;> cases hk
      · exact h.heap _ _ hk
    · rw [List.getElem?_set_ne hki] at hk
      exact h.heap k ts hk
  · intro k d' hk
    simp only at hk
    by_cases hki : i = k
    · subst hki
      rw [List.getElem?_set] at hk
      simp only [if_true] at hk
      split at hk
      · cases hk; exact hd
      · cases hk
    · rw [List.getElem?_set_ne hki] at hk
      exact h.keys k d' hk
  · intro v cell hc
    have := h.vars v cell hc
    simp only
    by_cases hki : i = cell.lin
    · subst hki
      rw [List.getElem?_set_self (by rw [List.getElem?_eq_some_iff] at this; exact this.1), hv _ this]
    · rw [List.getElem?_set_ne hki]; exact this

theorem World.derivatives_shape {w : World F} (h : Shape w) {u : UF F} (hu : u.Valid w) :
    ∃ w' d, w.derivatives u = (w', .ok d) ∧ Reads w w' ∧
      ∀ v ∈ d.map Prod.fst, v < w.vars.length := by
  obtain ⟨d, hr⟩ := readDerivs_terminates w.nodes h.heap u.lin hu.1
  have hlt : u.lin < w.nodes.length := hu.1
  have hg : w.nodes[u.lin]? = some w.nodes[u.lin] := List.getElem?_eq_getElem hlt
  have key : (∀ v ∈ d.map Prod.fst, v < w.vars.length) ∧
      (∀ d0, w.nodes[u.lin]? = some (.dict d0) → d = d0) := by
    cases hc : w.nodes[u.lin] with
    | dict d0 =>
      rw [hc] at hg
      have hr' := hr
      simp only [readDerivs, hg, Prod.mk.injEq, Except.ok.injEq] at hr'
      rw [← hr'.2]
      refine ⟨h.keys _ _ hg, ?_⟩
      intro d1 h1
      rw [hg] at h1; cases h1; rfl
    | terms ts =>
      rw [hc] at hg
      obtain ⟨d', hd'⟩ := expand_terminates w.nodes h.heap u.lin ts hg
      have := expandLoop_keys w.vars.length _ w.nodes u.lin [] ts hg h.heap h.keys (by simp) d' hd'
      simp only [readDerivs, hg, hd', List.getElem?_set_self hu.1, Prod.mk.injEq,
        Except.ok.injEq] at hr
      rw [← hr.2]
      exact ⟨this, fun d0 h0 => by rw [hg] at h0; cases h0⟩
  refine ⟨{ w with nodes := w.nodes.set u.lin (.dict d) }, d, ?_, ?_, key.1⟩
  · simp [World.derivatives, hr]
  · exact ⟨h.setDict key.1 key.2, by simp, rfl, rfl⟩

theorem errorLoop_ok (vars : List (VarCell F)) (d : Derivs F)
    (hk : ∀ v ∈ d.map Prod.fst, v < vars.length) : ∃ l, errorLoop vars d = .ok l := by
  induction d with
  | nil => exact ⟨[], rfl⟩
  | cons p d ih =>
    obtain ⟨v, x⟩ := p
    obtain ⟨l, hl⟩ := ih (fun v hv => hk v (by simp at hv ⊢; exact Or.inr hv))
    have hlt : v < vars.length := hk v (by simp)
    have hv : vars[v]? = some vars[v] := List.getElem?_eq_getElem hlt
    simp only [errorLoop, hv, hl]
    split
    · exact ⟨_, rfl⟩
    · exact ⟨_, rfl⟩

theorem World.errorComponents_shape {w : World F} (h : Shape w) {u : UF F} (hu : u.Valid w) :
    ∃ w' d, w.errorComponents u = (w', .ok d) ∧ Reads w w' := by
  obtain ⟨w', d, h1, h2, h3⟩ := World.derivatives_shape h hu
  obtain ⟨l, hl⟩ := errorLoop_ok w'.vars d (by rw [h2.vars]; exact h3)
  exact ⟨w', l, by simp [World.errorComponents, h1, hl], h2⟩

/-! ### No endless loop -/

/-- The result is not the error that stands for an endless loop. -/
def Fine {α : Type} (r : PyRes α) : Prop := r ≠ .error .outOfFuel

section halts
variable [Halts F]

theorem sumSquares_fine (l : List F) (acc : F) : Fine (sumSquares l acc) := by
  induction l generalizing acc with
  | nil => simp [sumSquares, Fine]
  | cons x l ih =>
    simp only [sumSquares]
    cases hx : PyFloat.sq x with
    | error e => have := Halts.sq x; rw [hx] at this; simpa [Fine] using this
    | ok y => exact ih _

theorem World.affStdDev_shape {w : World F} (h : Shape w) {u : UF F} (hu : u.Valid w) :
    ∃ w' r, w.affStdDev u = (w', r) ∧ Reads w w' ∧ Fine r := by
  obtain ⟨w', d, h1, h2⟩ := World.errorComponents_shape h hu
  simp only [World.affStdDev, h1]
  cases hs : sumSquares (d.map Prod.snd) 0 with
  | error e =>
    refine ⟨w', _, rfl, h2, ?_⟩
    have := sumSquares_fine (d.map Prod.snd) 0
    rw [hs] at this
    simpa [Fine] using this
  | ok t => exact ⟨w', _, rfl, h2, Halts.sqrt t⟩

theorem World.stdDev_shape {w : World F} (h : Shape w) {u : UF F} (hu : u.Valid w) :
    ∃ w' r, w.stdDev u = (w', r) ∧ Reads w w' ∧ Fine r := by
  unfold World.stdDev
  cases hv : u.var with
  | none => exact World.affStdDev_shape h hu
  | some v =>
    obtain ⟨cell, hc, -⟩ := hu.2 v hv
    simp only [hc]
    exact ⟨w, _, rfl, Reads.refl h, by simp [Fine]⟩

theorem World.stdScore_shape {w : World F} (h : Shape w) {u : UF F} (hu : u.Valid w) (x : F) :
    ∃ w' r, w.stdScore u x = (w', r) ∧ Reads w w' ∧ Fine r := by
  obtain ⟨w', r, h1, h2, h3⟩ := World.stdDev_shape h hu
  unfold World.stdScore
  rw [h1]
  cases r with
  | error e =>
    cases e <;> first | exact absurd rfl h3 | exact ⟨w', _, rfl, h2, by simp [Fine]⟩
  | ok s =>
    cases ht : PyFloat.truediv (x - u.nom) s with
    | ok r => exact ⟨w', .ok r, by simp only [ht], h2, by simp [Fine]⟩
    | error e =>
      have := Halts.truediv (x - u.nom) s
      rw [ht] at this
      simp only [ht]
      cases e <;> first | exact absurd rfl this | exact ⟨w', _, rfl, h2, by simp [Fine]⟩

theorem covElem_fine (vars : List (VarCell F)) (d2 d1 : Derivs F) (acc : F) :
    Fine (covElem vars d2 d1 acc) := by
  induction d1 generalizing acc with
  | nil => simp [covElem, Fine]
  | cons p d ih =>
    obtain ⟨v, a⟩ := p
    simp only [covElem]
    split
    · exact ih _
    · split
      · simp [Fine]
      · rename_i cell _
        cases hs : PyFloat.sq cell.std with
        | error e => have := Halts.sq cell.std; rw [hs] at this; simpa [Fine] using this
        | ok s => exact ih _

theorem World.covRow_shape (d1 : Derivs F) (us : List (UF F)) {w : World F} (h : Shape w)
    (hus : ∀ u ∈ us, u.Valid w) :
    ∃ w' r, World.covRow d1 us w = (w', r) ∧ Reads w w' ∧ Fine r ∧
      ∀ l, r = .ok l → l.length = us.length := by
  induction us generalizing w with
  | nil => exact ⟨w, _, rfl, Reads.refl h, by simp [Fine], by simp⟩
  | cons u us ih =>
    obtain ⟨w1, d2, a1, a2, -⟩ := World.derivatives_shape h (hus u (by simp))
    simp only [World.covRow, a1]
    cases hc : covElem w1.vars d2 d1 0 with
    | error e =>
      have := covElem_fine w1.vars d2 d1 0
      rw [hc] at this
      exact ⟨w1, _, rfl, a2, by simpa [Fine] using this, by simp⟩
    | ok x =>
      obtain ⟨w2, r, b1, b2, b3, b4⟩ := ih a2.shape (fun v hv => (hus v (by simp [hv])).grows a2.grows)
      simp only [b1]
      cases r with
      | error e => exact ⟨w2, _, rfl, a2.trans b2, by simpa [Fine] using b3, by simp⟩
      | ok l =>
        refine ⟨w2, _, rfl, a2.trans b2, by simp [Fine], ?_⟩
        intro l' hl'
        cases hl'
        simp [b4 l rfl]

theorem World.covRows_shape (us done : List (UF F)) {w : World F} (h : Shape w)
    (hus : ∀ u ∈ us, u.Valid w) (hd : ∀ u ∈ done, u.Valid w) :
    ∃ w' r, World.covRows done us w = (w', r) ∧ Reads w w' ∧ Fine r := by
  induction us generalizing w done with
  | nil => exact ⟨w, _, rfl, Reads.refl h, by simp [Fine]⟩
  | cons u us ih =>
    obtain ⟨w1, d1, a1, a2, -⟩ := World.derivatives_shape h (hus u (by simp))
    simp only [World.covRows, a1]
    have hd1 : ∀ v ∈ done ++ [u], v.Valid w1 := by
      intro v hv
      rcases List.mem_append.mp hv with hv | hv
      · exact (hd v hv).grows a2.grows
      · simp only [List.mem_singleton] at hv; subst hv; exact (hus v (by simp)).grows a2.grows
    obtain ⟨w2, r, b1, b2, b3, -⟩ := World.covRow_shape d1 (done ++ [u]) a2.shape hd1
    simp only [b1]
    cases r with
    | error e => exact ⟨w2, _, rfl, a2.trans b2, by simpa [Fine] using b3⟩
    | ok row =>
      obtain ⟨w3, r, c1, c2, c3⟩ := ih (done ++ [u]) b2.shape
        (fun v hv => (hus v (by simp [hv])).grows (a2.trans b2).grows)
        (fun v hv => (hd1 v hv).grows b2.grows)
      simp only [c1]
      cases r with
      | error e => exact ⟨w3, _, rfl, (a2.trans b2).trans c2, by simpa [Fine] using c3⟩
      | ok rows => exact ⟨w3, _, rfl, (a2.trans b2).trans c2, by simp [Fine]⟩

end halts

theorem column_fine (i : Nat) (rows : List (List F)) : Fine (column i rows) := by
  induction rows with
  | nil => simp [column, Fine]
  | cons r rows ih =>
    simp only [column]
    split
    · simp [Fine]
    · cases hc : column i rows with
      | error e => rw [hc] at ih; simpa [Fine] using ih
      | ok l => simp [Fine]

theorem symmetrize_fine (i : Nat) (rows : List (List F)) : Fine (symmetrize i rows) := by
  induction rows generalizing i with
  | nil => simp [symmetrize, Fine]
  | cons r rows ih =>
    simp only [symmetrize]
    cases hc : column i rows with
    | error e => have := column_fine i rows; rw [hc] at this; simpa [Fine] using this
    | ok l =>
      have := ih (i + 1)
      cases hs : symmetrize (i + 1) rows with
      | error e => rw [hs] at this; simpa [Fine] using this
      | ok l => simp [Fine]

theorem World.covarianceMatrix_shape [Halts F] (us : List (UF F)) {w : World F} (h : Shape w)
    (hus : ∀ u ∈ us, u.Valid w) :
    ∃ w' r, w.covarianceMatrix us = (w', r) ∧ Reads w w' ∧ Fine r := by
  obtain ⟨w', r, h1, h2, h3⟩ := World.covRows_shape us [] h hus (by simp)
  simp only [World.covarianceMatrix, h1]
  cases r with
  | error e => exact ⟨w', _, rfl, h2, by simpa [Fine] using h3⟩
  | ok rows => exact ⟨w', _, rfl, h2, symmetrize_fine 0 rows⟩

/-! ### Creating objects -/

theorem Shape.alloc {w : World F} (h : Shape w) (lc : LC F)
    (hd : ∀ d, lc = .dict d → ∀ v ∈ d.map Prod.fst, v < w.vars.length)
    (ht : ∀ ts, lc = .terms ts → ItemsBelow w.nodes.length ts) : Reads w (w.alloc lc).1 := by
  have hget : ∀ (i : NodeId) (lc' : LC F), (w.nodes ++ [lc])[i]? = some lc' →
      w.nodes[i]? = some lc' ∨ (i = w.nodes.length ∧ lc' = lc) := by
    intro i lc' hi
    by_cases hlt : i < w.nodes.length
    · rw [List.getElem?_append_left hlt] at hi; exact Or.inl hi
    · have hlen : i < (w.nodes ++ [lc]).length := by
        rw [List.getElem?_eq_some_iff] at hi; exact hi.1
      simp only [List.length_append, List.length_singleton] at hlen
      have : i = w.nodes.length := by omega
      subst this
      simp at hi
      exact Or.inr ⟨rfl, hi.symm⟩
  refine ⟨⟨?_, ?_, ?_, h.std, h.wraps⟩, by simp [World.alloc], rfl, rfl⟩
  · intro i ts hi
    rcases hget i _ hi with h1 | ⟨h1, h2⟩
    · exact h.heap i ts h1
    · subst h1; exact ht ts h2.symm
  · intro i d hi
    rcases hget i _ hi with h1 | ⟨h1, h2⟩
    · exact h.keys i d h1
    · exact hd d h2.symm
  · intro v cell hc
    have := h.vars v cell hc
    simp only [World.alloc]
    rw [List.getElem?_append_left (by rw [List.getElem?_eq_some_iff] at this; exact this.1)]
    exact this

theorem Shape.addVar {w : World F} (h : Shape w) (n s : F) (tag : Option String)
    (hs : specBadStd s = false) :
    Grows w ⟨w.nodes ++ [.dict [(w.vars.length, 1)]],
      w.vars ++ [{ nom := n, std := s, tag := tag, lin := w.nodes.length }], w.wraps⟩ := by
  have hvget : ∀ (v : VarId) (c : VarCell F) (x : VarCell F), (w.vars ++ [x])[v]? = some c →
      w.vars[v]? = some c ∨ (v = w.vars.length ∧ c = x) := by
    intro v c x hv
    by_cases hlt : v < w.vars.length
    · rw [List.getElem?_append_left hlt] at hv; exact Or.inl hv
    · have hlen : v < (w.vars ++ [x]).length := by
        rw [List.getElem?_eq_some_iff] at hv; exact hv.1
      simp only [List.length_append, List.length_singleton] at hlen
      have : v = w.vars.length := by omega
      subst this
      simp at hv
      exact Or.inr ⟨rfl, hv.symm⟩
  refine ⟨⟨?_, ?_, ?_, ?_, h.wraps⟩, by simp, ?_, rfl⟩
  · intro i ts hi
    by_cases hlt : i < w.nodes.length
    · simp only at hi
      rw [List.getElem?_append_left hlt] at hi; exact h.heap i ts hi
    · have hlen : i < (w.nodes ++ [LC.dict [(w.vars.length, (1 : F))]]).length := by
        rw [List.getElem?_eq_some_iff] at hi; exact hi.1
      simp only [List.length_append, List.length_singleton] at hlen
      have : i = w.nodes.length := by omega
      subst this
      simp at hi
  · intro i d hi v hv
    simp only [List.length_append, List.length_singleton]
    by_cases hlt : i < w.nodes.length
    · simp only at hi
      rw [List.getElem?_append_left hlt] at hi
      have := h.keys i d hi v hv
      omega
    · have hlen : i < (w.nodes ++ [LC.dict [(w.vars.length, (1 : F))]]).length := by
        rw [List.getElem?_eq_some_iff] at hi; exact hi.1
      simp only [List.length_append, List.length_singleton] at hlen
      have : i = w.nodes.length := by omega
      subst this
      simp at hi
      subst hi
      simp at hv
      omega
  · intro v cell hc
    simp only
    rcases hvget v cell _ hc with h1 | ⟨h1, h2⟩
    · have := h.vars v cell h1
      rw [List.getElem?_append_left (by rw [List.getElem?_eq_some_iff] at this; exact this.1)]
      exact this
    · subst h1 h2
      simp
  · intro v cell hc
    rcases hvget v cell _ hc with h1 | ⟨h1, h2⟩
    · exact h.std v cell h1
    · subst h2; exact hs
  · intro v c hc
    refine ⟨c, ?_, rfl, rfl⟩
    simp only
    rw [List.getElem?_append_left (by rw [List.getElem?_eq_some_iff] at hc; exact hc.1)]
    exact hc

theorem World.ufloat_shape {w : World F} (h : Shape w) (n s : F) (tag : Option String) :
    ∃ w' r, w.ufloat n s tag = (w', r) ∧ Grows w w' ∧ w'.wraps = w.wraps ∧
      ((specBadStd s = true ∧ w' = w ∧ r = .error .negativeStdDev) ∨
       (specBadStd s = false ∧ ∃ l, w'.vars = w.vars ++ [⟨n, s, tag, l⟩] ∧
        ∃ u, r = .ok u ∧ u.Valid w' ∧ u.nom = n ∧ u.var = some w.vars.length)) := by
  unfold World.ufloat
  cases hb : specBadStd s with
  | true =>
    have hb' : (PyFloat.ltb s 0 && !PyFloat.isInf s) = true := hb
    simp only [hb', if_true]
    exact ⟨w, _, rfl, Grows.refl h, rfl, Or.inl ⟨trivial, rfl, rfl⟩⟩
  | false =>
    have hb' : (PyFloat.ltb s 0 && !PyFloat.isInf s) = false := hb
    simp only [hb', Bool.false_eq_true, if_false]
    refine ⟨_, _, rfl, h.addVar n s tag hb, rfl, Or.inr ⟨trivial, w.nodes.length, rfl, _, rfl, ?_, rfl, rfl⟩⟩
    refine ⟨by simp [World.alloc], ?_⟩
    intro v hv
    cases hv
    exact ⟨⟨n, s, tag, w.nodes.length⟩, by simp [World.alloc], rfl, rfl⟩

theorem World.setStd_shape {w : World F} (h : Shape w) (v : VarId) (s : F) :
    ∃ w' r, w.setStd v s = (w', r) ∧ Grows w w' ∧ Fine r := by
  unfold World.setStd
  cases hg : w.vars[v]? with
  | none => exact ⟨w, _, rfl, Grows.refl h, by simp [Fine]⟩
  | some cell =>
    simp only []
    split
    · exact ⟨w, _, rfl, Grows.refl h, by simp [Fine]⟩
    · rename_i hb
      refine ⟨_, _, rfl, ?_, by simp [Fine]⟩
      have hlt : v < w.vars.length := (List.getElem?_eq_some_iff.mp hg).1
      have hget : ∀ (u : VarId) (c : VarCell F), (w.vars.set v { cell with std := s })[u]? = some c →
          ∃ c0, w.vars[u]? = some c0 ∧ c.lin = c0.lin ∧ c.nom = c0.nom ∧
            (c.std = c0.std ∨ c.std = s) := by
        intro u c hu
        by_cases e : v = u
        · subst e
          rw [List.getElem?_set_self hlt] at hu
          cases hu
          exact ⟨cell, hg, rfl, rfl, Or.inr rfl⟩
        · rw [List.getElem?_set_ne e] at hu
          exact ⟨c, hu, rfl, rfl, Or.inl rfl⟩
      refine ⟨⟨h.heap, ?_, ?_, ?_, h.wraps⟩, Nat.le_refl _, ?_, rfl⟩
      · intro i d hi; simpa using h.keys i d hi
      · intro u c hu
        obtain ⟨c0, a1, a2, -⟩ := hget u c hu
        rw [a2]; exact h.vars u c0 a1
      · intro u c hu
        obtain ⟨c0, a1, -, -, a4⟩ := hget u c hu
        rcases a4 with e | e
        · rw [e]; exact h.std u c0 a1
        · rw [e]; unfold specBadStd; simpa using hb
      · intro u c hu
        by_cases e : v = u
        · subst e
          rw [hg] at hu
          cases hu
          exact ⟨{ cell with std := s }, by simp [hlt], rfl, rfl⟩
        · exact ⟨c, by simp only; rw [List.getElem?_set_ne e]; exact hu, rfl, rfl⟩

end floats

end Unc
