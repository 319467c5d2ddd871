import Verif.Lemmas.ReadTerms
import Verif.Lemmas.Threads
import Verif.Py.D64

/-
The derivatives of results with only one term, whose coefficient is 1 or -1.
-/

namespace Unc

set_option autoImplicit false

section heap
variable {F : Type} [PyFloat F]

/-- Multiplication by the coefficient `c` is `σ`, which is a sign. -/
structure SignCoef (c : F) (σ : F → F) : Prop where
  coef : ∀ a, c * a = σ a
  mul : ∀ a b, σ a * b = σ (a * b)
  add : ∀ a b, σ a + σ b = σ (a + b)
  zero_add : ∀ a : F, 0 + a = a
  abs : ∀ a, PyFloat.abs (σ a) = PyFloat.abs a

theorem signCoef_one [SignLaws F] : SignCoef (1 : F) (fun a => a) :=
  ⟨SignLaws.one_mul, fun _ _ => rfl, fun _ _ => rfl, SignLaws.zero_add, fun _ => rfl⟩

theorem signCoef_neg [SignLaws F] : SignCoef (-1 : F) (fun a => -a) :=
  ⟨fun a => by rw [SignLaws.neg_mul, SignLaws.one_mul], SignLaws.neg_mul, SignLaws.neg_add, SignLaws.zero_add, SignLaws.abs_neg⟩

/-- The sign, applied to derivatives. -/
def signDict (σ : F → F) (d : Derivs F) : Derivs F := d.map fun p => (p.1, σ p.2)

/-- The sign, applied to a term. -/
def signItem (σ : F → F) : Item F → Item F
  | .pair c j => .pair (σ c) j
  | .junk => .junk

theorem addTo_sign {c : F} {σ : F → F} (s : SignCoef c σ) (d : Derivs F) (v : VarId) (x : F) :
    addTo (signDict σ d) v (σ x) = signDict σ (addTo d v x) := by
  induction d with
  | nil => simp only [signDict, addTo, List.map_nil, List.map_cons, s.zero_add]
  | cons p d ih =>
    obtain ⟨u, y⟩ := p
    simp only [signDict, addTo, List.map_cons] at ih ⊢
    split
    · simp only [List.map_cons, s.add]
    · simp only [List.map_cons, ih]

theorem addScaled_sign {c : F} {σ : F → F} (s : SignCoef c σ) (f : F) (d acc : Derivs F) :
    addScaled (σ f) d (signDict σ acc) = signDict σ (addScaled f d acc) := by
  induction d generalizing acc with
  | nil => rfl
  | cons p d ih =>
    obtain ⟨v, x⟩ := p
    simp only [addScaled, s.mul, addTo_sign s, ih]

theorem scale_sign {c : F} {σ : F → F} (s : SignCoef c σ) (f : F) (ts : List (Item F)) :
    ts.map (scaleItem (σ f)) = (ts.map (scaleItem f)).map (signItem σ) := by
  rw [List.map_map]
  apply List.map_congr_left
  intro t _
  cases t with
  | junk => rfl
  | pair g j => simp only [Function.comp, scaleItem, signItem, s.mul]

theorem scale_coef {c : F} {σ : F → F} (s : SignCoef c σ) (ts : List (Item F)) : ts.map (scaleItem c) = ts.map (signItem σ) := by
  apply List.map_congr_left
  intro t _
  cases t with
  | junk => rfl
  | pair g j => simp only [scaleItem, signItem, s.coef]

theorem addTo_new {d : Derivs F} {v : VarId} (h : v ∉ d.map Prod.fst) (x : F) : addTo d v x = d ++ [(v, 0 + x)] := by
  induction d with
  | nil => rfl
  | cons p d ih =>
    obtain ⟨u, y⟩ := p
    simp only [List.map_cons, List.mem_cons, not_or] at h
    simp only [addTo, if_neg (Ne.symm h.1), ih h.2, List.cons_append]

theorem addScaled_new {c : F} {σ : F → F} (s : SignCoef c σ) (d acc : Derivs F) (hd : KeysNodup d)
    (h : ∀ v ∈ d.map Prod.fst, v ∉ acc.map Prod.fst) : addScaled c d acc = acc ++ signDict σ d := by
  induction d generalizing acc with
  | nil => simp [addScaled, signDict]
  | cons p d ih =>
    obtain ⟨v, x⟩ := p
    simp only [KeysNodup, List.map_cons, List.nodup_cons] at hd
    simp only [addScaled]
    rw [addTo_new (h v (by simp)), ih _ hd.2]
    · simp [signDict, s.coef, s.zero_add]
    · intro u hu
      have h1 := h u (by simp only [List.map_cons, List.mem_cons]; exact .inr hu)
      simp only [List.map_append, List.map_cons, List.map_nil, List.mem_append, List.mem_singleton, not_or]
      refine ⟨h1, ?_⟩
      rintro rfl
      exact hd.1 hu

/-- The loop of the result follows the loop of the operand. -/
theorem expandLoop_sign {c : F} {σ : F → F} (s : SignCoef c σ) {h h' : Heap F} (hw : HeapWF h) {y z : NodeId} (hy : y < h.length)
    (hz : z < h'.length) (hyz : y ≤ z) (hu : ∀ j, j < y → h'[j]? = h[j]?) {D : Derivs F} (fuel : Nat) {ts : List (Item F)}
    {d : Derivs F} (hm : ItemsBelow y ts)
    (hg : expandLoop fuel (h.set y (.terms ts)) y d = (h.set y (.dict D), .ok ())) :
    expandLoop fuel (h'.set z (.terms (ts.map (signItem σ)))) z (signDict σ d) = (h'.set z (.dict (signDict σ D)), .ok ()) := by
  induction fuel generalizing ts d with
  | zero => simp [expandLoop] at hg
  | succ fuel ih =>
    have hget : ∀ ts : List (Item F), (h.set y (LC.terms ts))[y]? = some (.terms ts) :=
      fun ts => List.getElem?_set_self hy
    have hget' : ∀ ts : List (Item F), (h'.set z (LC.terms ts))[z]? = some (.terms ts) :=
      fun ts => List.getElem?_set_self hz
    cases ts with
    | nil =>
      simp only [expandLoop, expandStep, hget, List.set_set, Prod.mk.injEq, and_true] at hg
      have hdD : d = D := by
        have := congrArg (fun l => l[y]?) hg
        simpa [List.getElem?_set_self hy] using this
      subst hdD
      simp only [List.map_nil, expandLoop, expandStep, hget', List.set_set]
    | cons t ts =>
      obtain ⟨f, j, rfl, huj⟩ := hm t (by simp)
      have hm' : ItemsBelow y ts := fun t ht => hm t (by simp [ht])
      have hj : ∀ ts : List (Item F), ((h.set y (LC.terms ts)))[j]? = h[j]? :=
        fun ts => by rw [List.getElem?_set_ne huj.ne']
      have hj' : ∀ ts : List (Item F), ((h'.set z (LC.terms ts)))[j]? = h[j]? :=
        fun ts => by rw [List.getElem?_set_ne (by omega), hu j huj]
      have hjl : j < h.length := huj.trans hy
      have hgj : h[j]? = some h[j] := List.getElem?_eq_getElem hjl
      cases hcj : h[j] with
      | dict dj =>
        rw [hcj] at hgj
        simp only [expandLoop, expandStep, hget, List.set_set, hj, hgj] at hg
        simp only [List.map_cons, signItem, expandLoop, expandStep, hget', List.set_set, hj', hgj, addScaled_sign s]
        exact ih hm' hg
      | terms tj =>
        rw [hcj] at hgj
        have hb := hw j tj hgj
        simp only [expandLoop, expandStep, hget, List.set_set, hj, hgj, pushScaled_reverse f j tj ts hb] at hg
        simp only [List.map_cons, signItem, expandLoop, expandStep, hget', List.set_set, hj', hgj,
          pushScaled_reverse (σ f) j tj _ hb]
        rw [scale_sign s, ← List.map_append]
        exact ih (itemsBelow_append (itemsBelow_scale huj.le hb) hm') hg

/-- The derivatives of a result that has only one term, with coefficient 1 or -1. -/
theorem readDerivs_sign {c : F} {σ : F → F} (s : SignCoef c σ) {h : Heap F} (hw : HeapWF h) {y : NodeId} (hy : y < h.length)
    (hn : ∀ d, h[y]? = some (.dict d) → KeysNodup d) :
    ∃ D, readDerivs h y = (h.set y (.dict D), .ok D) ∧ readDerivs (h ++ [LC.terms [Item.pair c y]]) h.length =
      ((h ++ [LC.terms [Item.pair c y]]).set h.length (.dict (signDict σ D)), .ok (signDict σ D)) := by
  obtain ⟨D, hD⟩ := readDerivs_terminates h hw y hy
  refine ⟨D, hD, ?_⟩
  have hgy : h[y]? = some h[y] := List.getElem?_eq_getElem hy
  cases hc : h[y] with
  | dict d =>
    rw [hc] at hgy
    simp only [readDerivs, hgy, Prod.mk.injEq, Except.ok.injEq] at hD
    have e := readDerivs_append h [.pair c y] (by
      intro t ht
      simp only [List.mem_singleton] at ht
      exact ⟨c, y, d, ht, hgy⟩)
    have e2 : applyItems h [.pair c y] [] = signDict σ D := by
      simp only [applyItems, dictAt, hgy]
      rw [addScaled_new s d [] (hn d hgy) (by simp), ← hD.2]
      rfl
    rw [e2] at e
    exact e
  | terms ts =>
    rw [hc] at hgy
    have hb := hw y ts hgy
    have hi : (h ++ [LC.terms [Item.pair c y]])[h.length]? = some (.terms [.pair c y]) := by simp
    have hw' : HeapWF (h ++ [LC.terms [Item.pair c y]]) := by
      intro i ts' hi'
      by_cases hl : i < h.length
      · rw [List.getElem?_append_left hl] at hi'
        exact hw i ts' hi'
      · rw [List.getElem?_append_right (by omega)] at hi'
        have h0 : i - h.length = 0 := by
          by_contra h0
          rw [List.getElem?_eq_none (by simp; omega)] at hi'
          cases hi'
        rw [h0] at hi'
        simp only [List.getElem?_cons_zero, Option.some.injEq, LC.terms.injEq] at hi'
        subst hi'
        intro t ht
        simp only [List.mem_singleton] at ht
        exact ⟨c, y, ht, by omega⟩
    have hset : h.set y (.terms ts) = h := by
      apply List.ext_getElem?
      intro j
      by_cases hj : y = j
      · subst hj; rw [List.getElem?_set_self hy, hgy]
      · rw [List.getElem?_set_ne hj]
    obtain ⟨d1, h1⟩ := expand_terminates h hw y ts hgy
    obtain ⟨d2, h2⟩ := expand_terminates _ hw' h.length _ hi
    have hz : h.length < (h ++ [LC.terms [Item.pair c y]]).length := by simp
    simp only [readDerivs, hgy, h1, List.getElem?_set_self hy, Prod.mk.injEq, Except.ok.injEq] at hD
    simp only [readDerivs, hi, h2, List.getElem?_set_self hz]
    obtain ⟨-, rfl⟩ := hD
    suffices d2 = signDict σ d1 by rw [this]
    unfold expand at h1 h2
    have h3 := expandLoop_sign s (h' := h ++ [LC.terms [Item.pair c y]]) hw hy hz hy.le
      (fun j hj => List.getElem?_append_left (hj.trans hy)) (fuelFor h y) (ts := ts) (d := []) (D := d1) hb (by rw [hset]; exact h1)
    have h4 : expandLoop (fuelFor h y + 1) (h ++ [LC.terms [Item.pair c y]]) h.length [] =
        ((h ++ [LC.terms [Item.pair c y]]).set h.length (.dict (signDict σ d1)), .ok ()) := by
      have hj : ((h ++ [LC.terms [Item.pair c y]]).set h.length (LC.terms []))[y]? = some (.terms ts) := by
        rw [List.getElem?_set_ne (by omega), List.getElem?_append_left hy, hgy]
      simp only [expandLoop, expandStep, hi, hj, pushScaled_reverse c y ts [] hb, List.append_nil, List.set_set, scale_coef s]
      exact h3
    have h5 := expandLoop_mono _ (fuelFor (h ++ [LC.terms [Item.pair c y]]) h.length) h4
    have h6 := expandLoop_mono _ (fuelFor h y + 1) h2
    rw [Nat.add_comm] at h6
    rw [h5] at h6
    simp only [Prod.mk.injEq, and_true] at h6
    have := congrArg (fun l => l[h.length]?) h6
    simpa [List.getElem?_set_self hz] using this.symm

end heap

section world
variable {F : Type} [PyFloat F]

theorem lookup_signDict (σ : F → F) (d : Derivs F) (v : VarId) : (signDict σ d).lookup v = (d.lookup v).map σ := by
  induction d with
  | nil => rfl
  | cons p d ih =>
    obtain ⟨u, y⟩ := p
    change List.lookup v ((u, σ y) :: signDict σ d) = _
    rw [lookup_cons, lookup_cons, ih]
    split <;> rfl

theorem errorLoop_sign {c : F} {σ : F → F} (s : SignCoef c σ) (V : List (VarCell F)) (d : Derivs F) :
    errorLoop V (signDict σ d) = errorLoop V d := by
  induction d with
  | nil => rfl
  | cons p d ih =>
    obtain ⟨u, y⟩ := p
    change errorLoop V ((u, σ y) :: signDict σ d) = _
    simp only [errorLoop, ih, s.mul, s.abs]

/-- A call whose result has one term, with coefficient 1 or -1. -/
theorem World.call_sign {w : World F} (h : Shape w) (hn : ∀ (i : NodeId) (d : Derivs F), w.nodes[i]? = some (.dict d) → KeysNodup d)
    {fid : Nat} {df : WrapDef F} (hdf : (w.wraps[fid]?).map Wrapped.df = some df) {args : List (Val F)} {z c : F} {x : UF F}
    (hx : x.lin < w.nodes.length) {σ : F → F} (s : SignCoef c σ)
    (hc : callSpec df args [] = .ok (.inr (z, [.pair c x.lin]))) :
    ∃ w' u D, w.call fid args [] = (w', .ok (.unc u)) ∧ u.var = none ∧ (w.derivatives x).2 = .ok D ∧
      (w'.derivatives u).2 = .ok (signDict σ D) ∧ (w'.errorComponents u).2 = (w.errorComponents x).2 ∧
      (w'.affStdDev u).2 = (w.affStdDev x).2 := by
  obtain ⟨wf, hg, hwf⟩ := Option.map_eq_some_iff.mp hdf
  obtain ⟨wf', k1, k2, k3⟩ := callTerms_callSpec wf (h.wraps fid wf hg) args []
  rw [hwf, hc] at k1
  obtain ⟨D, d1, d2⟩ := readDerivs_sign s h.heap hx (hn x.lin)
  refine ⟨{ nodes := w.nodes ++ [LC.terms [Item.pair c x.lin]], vars := w.vars, wraps := w.wraps.set fid wf' },
    { nom := z, lin := w.nodes.length, var := none }, D, by simp only [World.call, hg, k1, World.alloc], rfl, ?_, ?_, ?_, ?_⟩
  · simp only [World.derivatives, d1]
  · simp only [World.derivatives, d2]
  · simp only [World.errorComponents, World.derivatives, d1, d2, errorLoop_sign s]
  · simp only [World.affStdDev, World.errorComponents, World.derivatives, d1, d2, errorLoop_sign s]
    cases errorLoop w.vars D with
    | error e => rfl
    | ok l =>
      simp only []
      cases sumSquares (l.map Prod.snd) 0 <;> rfl

end world

end Unc
