import Verif.Spec.Sorting
import Verif.Props.C01_Nominal
import Verif.Props.C87_Constants

/-
C93: sorting numbers with uncertainty, `min()`, `max()` and other algorithms that compare numbers.
-/

namespace Unc

set_option autoImplicit false

section
variable {F : Type} [PyMath F] [Halts F]

theorem evalUnc_stable {cs cs' : List (Cmd F)} {x : Arg F} {u : UF F} (h : x.evalUnc (after cs).env = some u) :
    x.evalUnc (after (cs ++ cs')).env = some u := by
  induction cs' using List.reverseRecOn with
  | nil => simpa using h
  | append_singleton cs' c ih =>
    rw [← List.append_assoc]
    obtain ⟨l, hl, -⟩ := (after_step_ok (cs ++ cs') c).env
    rw [hl]
    cases x with
    | const c => exact ih
    | ref k =>
      simp only [Arg.evalUnc, Arg.eval] at ih ⊢
      cases hg : (after (cs ++ cs')).env[k]? with
      | none => rw [hg] at ih; cases ih
      | some o =>
        rw [List.getElem?_append_left (List.getElem?_eq_some_iff.mp hg).1, hg]
        rw [hg] at ih
        exact ih

theorem valid_of_evalUnc {cs : List (Cmd F)} {x : Arg F} {u : UF F} (h : x.evalUnc (after cs).env = some u) :
    sees cs (.derivatives x) ≠ .invalid := by
  simp only [sees, Machine.step, Machine.read, h, mapRes]
  generalize World.derivatives (after cs).w u = r
  obtain ⟨w, r⟩ := r
  cases r <;> exact fun h => by cases h

theorem HasNominal.stable {cs : List (Cmd F)} {x : Arg F} {n : F} (h : HasNominal cs x n) (cs' : List (Cmd F)) :
    HasNominal (cs ++ cs') x n := by
  rcases h with h | ⟨h1, h2⟩
  · exact Or.inl h
  · obtain ⟨u, hu⟩ := evalUnc_of_valid h1
    exact Or.inr ⟨valid_of_evalUnc (evalUnc_stable hu), C01_stable cs cs' x _ h2⟩

theorem const_invalid (cs : List (Cmd F)) (c : F) : sees cs (.derivatives (.const (.flt c))) = .invalid := rfl

/-- C93. `<` and `>` between two items (numbers with uncertainty or floats) are the comparisons of their nominal values. -/
theorem C93_comparison (cs : List (Cmd F)) (x y : Arg F) (a b : F) (hx : HasNominal cs x a) (hy : HasNominal cs y b) :
    comparison cs .lt x y = some (PyFloat.ltb a b) ∧ comparison cs .gt x y = some (PyFloat.ltb b a) := by
  have main : ∀ op r, sees cs (.compare op x y) = .bool r → (∃ k, x = .ref k) ∨ (∃ k, y = .ref k) →
      comparison cs op x y = some r := by
    intro op r h hr
    rcases hr with ⟨k, rfl⟩ | ⟨k, rfl⟩
    · cases op <;> simp only [comparison, h]
    · cases op <;> simp only [comparison, h]
  have isRef : ∀ z n, (sees cs (.derivatives z) ≠ .invalid ∧ sees cs (.nominal z) = .val (.flt n)) → ∃ k, z = .ref k := by
    intro z n h
    cases z with
    | ref k => exact ⟨k, rfl⟩
    | const c => exact absurd rfl h.1
  rcases hx with rfl | hx
  · rcases hy with rfl | hy
    · exact ⟨rfl, rfl⟩
    · obtain ⟨h1, h2, -, -, h3⟩ := C87_float_order cs y b a hy.1 hy.2
      obtain ⟨k, hk⟩ := isRef _ _ hy
      exact ⟨main _ _ ((h3 .lt).trans h2) (Or.inr ⟨k, hk⟩), main _ _ ((h3 .gt).trans h1) (Or.inr ⟨k, hk⟩)⟩
  · obtain ⟨k, hk⟩ := isRef _ _ hx
    rcases hy with rfl | hy
    · obtain ⟨h1, h2, -⟩ := C87_float_order cs x a b hx.1 hx.2
      exact ⟨main _ _ h1 (Or.inl ⟨k, hk⟩), main _ _ h2 (Or.inl ⟨k, hk⟩)⟩
    · obtain ⟨h1, h2, -⟩ := C87_order cs x y a b hx.1 hy.1 hx.2 hy.2
      exact ⟨main _ _ h1 (Or.inl ⟨k, hk⟩), main _ _ h2 (Or.inl ⟨k, hk⟩)⟩

theorem forall2_get {A B : Type} {R : A → B → Prop} {xs : List A} {ns : List B} (h : List.Forall₂ R xs ns) :
    ∀ i : ℕ, (xs[i]? = none ∧ ns[i]? = none) ∨ ∃ x n, xs[i]? = some x ∧ ns[i]? = some n ∧ R x n := by
  induction h with
  | nil => exact fun i => Or.inl ⟨rfl, rfl⟩
  | cons h1 _ ih =>
    intro i
    cases i with
    | zero => exact Or.inr ⟨_, _, rfl, rfl, h1⟩
    | succ i => exact ih i

/-- C93. Any algorithm that only uses `<` and `>` gives the same result with numbers with uncertainty as with their nominal
values, after any history, and whatever the program does at the same time. -/
theorem C93_any_algorithm {α : Type} (algo : Algo α) (xs : List (Arg F)) (ns : List F) (others : List (Cmd F) → List (Cmd F))
    (cs : List (Cmd F)) (h : List.Forall₂ (HasNominal cs) xs ns) : algo.onNumbers xs others cs = algo.onFloats ns := by
  have get := fun cs (h : List.Forall₂ (HasNominal cs) xs ns) => forall2_get h
  induction algo generalizing cs with
  | ret r => rfl
  | less i j next ih =>
    simp only [Algo.onNumbers, Algo.onFloats]
    rcases get cs h i with ⟨h1, h2⟩ | ⟨x, a, h1, h2, h3⟩
    · rw [h1, h2]
    · rcases get cs h j with ⟨k1, k2⟩ | ⟨y, b, k1, k2, k3⟩
      · rw [h1, h2, k1, k2]
      · rw [h1, h2, k1, k2]
        simp only [(C93_comparison cs x y a b h3 k3).1]
        exact ih _ _ (h.imp fun _ _ hz => hz.stable _)
  | greater i j next ih =>
    simp only [Algo.onNumbers, Algo.onFloats]
    rcases get cs h i with ⟨h1, h2⟩ | ⟨x, a, h1, h2, h3⟩
    · rw [h1, h2]
    · rcases get cs h j with ⟨k1, k2⟩ | ⟨y, b, k1, k2, k3⟩
      · rw [h1, h2, k1, k2]
      · rw [h1, h2, k1, k2]
        simp only [(C93_comparison cs x y a b h3 k3).2]
        exact ih _ _ (h.imp fun _ _ hz => hz.stable _)

/-- C93. The comparisons `<` and `>` of numbers with uncertainty change nothing: the program then sees the same things. -/
theorem C93_unchanged (cs : List (Cmd F)) (op : CmpOp) (hop : op = .lt ∨ op = .gt) (x y : Arg F)
    (hx : sees cs (.derivatives x) ≠ .invalid) (hy : sees cs (.derivatives y) ≠ .invalid) (c : Cmd F) :
    sees (cs ++ [.compare op x y]) c = sees cs c := by
  obtain ⟨p, hp⟩ := evalUnc_of_valid hx
  obtain ⟨q, hq⟩ := evalUnc_of_valid hy
  have h : after (cs ++ [.compare op x y]) = after cs := by
    rw [after_snoc']
    rcases hop with rfl | rfl <;>
    simp only [Machine.step, evalUnc_eval_floats hp, evalUnc_eval_floats hq, Val.isUnc, Bool.or_self, if_true, World.compare,
      World.cmpRun, World.cmp, World.toAffine, CmpOp.swap] <;>
    cases (p.var.isNone && q.var.isSome) <;> rfl
  unfold sees
  rw [h]

end

/-! ### `min()`, `max()` and `sorted()` -/

/-- The value of an item, in units of 2**-1074. -/
def finVal (n : B64) : ℤ :=
  match n with
  | .fin m => m
  | _ => 0

theorem ltb_fin {a b : B64} (ha : a.Fin) (hb : b.Fin) : PyFloat.ltb a b = decide (finVal a < finVal b) := by
  obtain ⟨m, rfl⟩ := (B64.fin_iff a).1 ha
  obtain ⟨n, rfl⟩ := (B64.fin_iff b).1 hb
  rfl

theorem finVal_lt {a b : B64} (ha : a.Fin) (hb : b.Fin) : finVal a < finVal b ↔ Rounded.val a < Rounded.val b := by
  obtain ⟨m, rfl⟩ := (B64.fin_iff a).1 ha
  obtain ⟨n, rfl⟩ := (B64.fin_iff b).1 hb
  have hp : (0 : ℝ) < (2 : ℝ)⁻¹ ^ 1074 := by positivity
  change m < n ↔ (m : ℝ) * (2 : ℝ)⁻¹ ^ 1074 < (n : ℝ) * (2 : ℝ)⁻¹ ^ 1074
  rw [mul_lt_mul_iff_left₀ hp]
  exact Int.cast_lt.symm

/-- The value of the item `i`. -/
def itemVal (ns : List B64) (i : ℕ) : ℤ := finVal ((ns[i]?).getD .nan)

theorem less_fin {α : Type} {ns : List B64} (hf : ∀ n ∈ ns, Rounded.Fin n) {i j : ℕ} (hi : i < ns.length) (hj : j < ns.length)
    (next : Bool → Algo α) :
    (Algo.less i j next).onFloats ns = (next (decide (itemVal ns i < itemVal ns j))).onFloats ns ∧
    (Algo.greater i j next).onFloats ns = (next (decide (itemVal ns j < itemVal ns i))).onFloats ns := by
  simp only [Algo.onFloats, itemVal, List.getElem?_eq_getElem hi, List.getElem?_eq_getElem hj, Option.getD_some]
  rw [ltb_fin (hf _ (List.getElem_mem hi)) (hf _ (List.getElem_mem hj)), ltb_fin (hf _ (List.getElem_mem hj)) (hf _ (List.getElem_mem hi))]
  exact ⟨rfl, rfl⟩

theorem minFrom_spec {ns : List B64} (hf : ∀ n ∈ ns, Rounded.Fin n) (sgn : Bool) : ∀ (k best s : ℕ), best < s → s + k = ns.length →
    (∀ j < s, (if sgn then itemVal ns best ≤ itemVal ns j else itemVal ns j ≤ itemVal ns best) ∧
      (j < best → if sgn then itemVal ns best < itemVal ns j else itemVal ns j < itemVal ns best)) →
    ∃ r < ns.length, ((if sgn then minFrom best (List.range' s k) else maxFrom best (List.range' s k)).onFloats ns = some r) ∧
      ∀ j < ns.length, (if sgn then itemVal ns r ≤ itemVal ns j else itemVal ns j ≤ itemVal ns r) ∧
        (j < r → if sgn then itemVal ns r < itemVal ns j else itemVal ns j < itemVal ns r) := by
  intro k
  induction k with
  | zero =>
    intro best s hb hs h
    refine ⟨best, by omega, ?_, fun j hj => h j (by omega)⟩
    cases sgn <;> rfl
  | succ k ih =>
    intro best s hb hs h
    have hl := less_fin (α := ℕ) hf (i := s) (j := best) (by omega) (by omega)
    cases sgn with
    | true =>
      simp only [if_true] at *
      rw [List.range'_succ, minFrom, (hl _).1]
      by_cases hlt : itemVal ns s < itemVal ns best
      · rw [decide_eq_true hlt]
        refine ih s (s + 1) (by omega) (by omega) fun j hj => ?_
        rcases Nat.lt_succ_iff_lt_or_eq.1 hj with hj' | rfl
        · have := (h j hj').1
          exact ⟨by omega, fun _ => by omega⟩
        · exact ⟨le_rfl, fun h => absurd h (lt_irrefl _)⟩
      · rw [decide_eq_false hlt]
        refine ih best (s + 1) (by omega) (by omega) fun j hj => ?_
        rcases Nat.lt_succ_iff_lt_or_eq.1 hj with hj' | rfl
        · exact h j hj'
        · exact ⟨by omega, fun h => by omega⟩
    | false =>
      simp only [Bool.false_eq_true, if_false] at *
      rw [List.range'_succ, maxFrom, (hl _).2]
      by_cases hlt : itemVal ns best < itemVal ns s
      · rw [decide_eq_true hlt]
        refine ih s (s + 1) (by omega) (by omega) fun j hj => ?_
        rcases Nat.lt_succ_iff_lt_or_eq.1 hj with hj' | rfl
        · have := (h j hj').1
          exact ⟨by omega, fun _ => by omega⟩
        · exact ⟨le_rfl, fun h => absurd h (lt_irrefl _)⟩
      · rw [decide_eq_false hlt]
        refine ih best (s + 1) (by omega) (by omega) fun j hj => ?_
        rcases Nat.lt_succ_iff_lt_or_eq.1 hj with hj' | rfl
        · exact h j hj'
        · exact ⟨by omega, fun h => by omega⟩

theorem itemVal_lt {ns : List B64} (hf : ∀ n ∈ ns, Rounded.Fin n) {i j : ℕ} {a b : B64} (hi : ns[i]? = some a) (hj : ns[j]? = some b) :
    itemVal ns i < itemVal ns j ↔ Rounded.val a < Rounded.val b := by
  simp only [itemVal, hi, hj, Option.getD_some]
  exact finVal_lt (hf _ (List.mem_of_getElem? hi)) (hf _ (List.mem_of_getElem? hj))

theorem itemVal_le {ns : List B64} (hf : ∀ n ∈ ns, Rounded.Fin n) {i j : ℕ} {a b : B64} (hi : ns[i]? = some a) (hj : ns[j]? = some b) :
    itemVal ns i ≤ itemVal ns j ↔ Rounded.val a ≤ Rounded.val b := by
  rw [← not_lt, itemVal_lt hf hj hi, not_lt]

/-- C93. `min(xs)` is the first of the numbers with the smallest nominal value (finite doubles). -/
theorem C93_min (cs : List (Cmd B64)) (xs : List (Arg B64)) (ns : List B64) (h : List.Forall₂ (HasNominal cs) xs ns)
    (hf : ∀ n ∈ ns, Rounded.Fin n) (hne : xs ≠ []) (others : List (Cmd B64) → List (Cmd B64)) :
    ∃ r a, (minItem (xs.length - 1)).onNumbers xs others cs = some r ∧ ns[r]? = some a ∧
      ∀ j b, ns[j]? = some b → Rounded.val a ≤ Rounded.val b ∧ (j < r → Rounded.val a < Rounded.val b) := by
  rw [C93_any_algorithm _ xs ns others cs h]
  have hl := h.length_eq
  have hp : 0 < xs.length := List.length_pos_iff.2 hne
  obtain ⟨r, h1, h2, h3⟩ := minFrom_spec hf true (xs.length - 1) 0 1 (by omega) (by omega)
    (fun j hj => by obtain rfl : j = 0 := by omega
                    exact ⟨le_rfl, fun h => by omega⟩)
  simp only [if_true] at *
  refine ⟨r, ns[r], h2, List.getElem?_eq_getElem h1, fun j b hj => ?_⟩
  have hr := List.getElem?_eq_getElem h1
  obtain ⟨k1, k2⟩ := h3 j (List.getElem?_eq_some_iff.1 hj).1
  exact ⟨(itemVal_le hf hr hj).1 k1, fun hjr => (itemVal_lt hf hr hj).1 (k2 hjr)⟩

/-- C93. `max(xs)` is the first of the numbers with the largest nominal value (finite doubles). -/
theorem C93_max (cs : List (Cmd B64)) (xs : List (Arg B64)) (ns : List B64) (h : List.Forall₂ (HasNominal cs) xs ns)
    (hf : ∀ n ∈ ns, Rounded.Fin n) (hne : xs ≠ []) (others : List (Cmd B64) → List (Cmd B64)) :
    ∃ r a, (maxItem (xs.length - 1)).onNumbers xs others cs = some r ∧ ns[r]? = some a ∧
      ∀ j b, ns[j]? = some b → Rounded.val b ≤ Rounded.val a ∧ (j < r → Rounded.val b < Rounded.val a) := by
  rw [C93_any_algorithm _ xs ns others cs h]
  have hl := h.length_eq
  have hp : 0 < xs.length := List.length_pos_iff.2 hne
  obtain ⟨r, h1, h2, h3⟩ := minFrom_spec hf false (xs.length - 1) 0 1 (by omega) (by omega)
    (fun j hj => by obtain rfl : j = 0 := by omega
                    exact ⟨le_rfl, fun h => by omega⟩)
  simp only [Bool.false_eq_true, if_false] at *
  refine ⟨r, ns[r], h2, List.getElem?_eq_getElem h1, fun j b hj => ?_⟩
  have hr := List.getElem?_eq_getElem h1
  obtain ⟨k1, k2⟩ := h3 j (List.getElem?_eq_some_iff.1 hj).1
  exact ⟨(itemVal_le hf hj hr).1 k1, fun hjr => (itemVal_lt hf hj hr).1 (k2 hjr)⟩

/-- The item `i` is before the item `j` in a stable sort. -/
def Before (v : ℕ → ℤ) (i j : ℕ) : Prop := v i < v j ∨ (v i = v j ∧ i < j)

theorem insertAt_spec {ns : List B64} (hf : ∀ n ∈ ns, Rounded.Fin n) {sorted : List ℕ} (hs : sorted.Pairwise (Before (itemVal ns)))
    (hlt : ∀ q ∈ sorted, q < ns.length) {i : ℕ} (hi : i < ns.length) (next : ℕ → Algo (List ℕ)) :
    ∀ (fuel l r : ℕ), l ≤ r → r ≤ sorted.length → r - l ≤ fuel →
      (∀ p (hp : p < sorted.length), p < l → itemVal ns sorted[p] ≤ itemVal ns i) →
      (∀ p (hp : p < sorted.length), r ≤ p → itemVal ns i < itemVal ns sorted[p]) →
      ∃ q ≤ sorted.length, (insertAt sorted i next fuel l r).onFloats ns = (next q).onFloats ns ∧
        (∀ p (hp : p < sorted.length), p < q → itemVal ns sorted[p] ≤ itemVal ns i) ∧
        (∀ p (hp : p < sorted.length), q ≤ p → itemVal ns i < itemVal ns sorted[p]) := by
  have mono : ∀ p q (hp : p < sorted.length) (hq : q < sorted.length), p ≤ q → itemVal ns sorted[p] ≤ itemVal ns sorted[q] := by
    intro p q hp hq hpq
    rcases Nat.lt_or_eq_of_le hpq with h | rfl
    · rcases (List.pairwise_iff_getElem.1 hs) p q hp hq h with h' | ⟨h', -⟩ <;> omega
    · exact le_rfl
  intro fuel
  induction fuel with
  | zero =>
    intro l r h1 h2 h3 h4 h5
    obtain rfl : l = r := by omega
    exact ⟨l, h2, rfl, h4, h5⟩
  | succ fuel ih =>
    intro l r h1 h2 h3 h4 h5
    unfold insertAt
    by_cases hlr : l < r
    · rw [if_pos hlr]
      have hm : (l + r) / 2 < sorted.length := by omega
      simp only [List.getElem?_eq_getElem hm]
      rw [(less_fin hf hi (hlt _ (List.getElem_mem hm)) _).1]
      by_cases hc : itemVal ns i < itemVal ns sorted[(l + r) / 2]
      · rw [decide_eq_true hc]
        refine ih l ((l + r) / 2) (by omega) (by omega) (by omega) h4 fun p hp hmp => ?_
        exact hc.trans_le (mono _ _ hm hp hmp)
      · rw [decide_eq_false hc]
        refine ih ((l + r) / 2 + 1) r (by omega) h2 (by omega) (fun p hp hpm => ?_) h5
        exact (mono _ _ hp hm (by omega)).trans (not_lt.1 hc)
    · rw [if_neg hlr]
      obtain rfl : l = r := by omega
      exact ⟨l, h2, rfl, h4, h5⟩

theorem insertIdx_take_drop (s : ℕ) : ∀ (l : List ℕ) (q : ℕ), q ≤ l.length → l.insertIdx q s = l.take q ++ s :: l.drop q := by
  intro l
  induction l with
  | nil => intro q hq; obtain rfl : q = 0 := by simpa using hq
           rfl
  | cons a l ih =>
    intro q hq
    cases q with
    | zero => rfl
    | succ q => simp only [List.insertIdx_succ_cons, List.take_succ_cons, List.drop_succ_cons, List.cons_append, ih q (by simpa using hq)]

theorem sortFrom_spec {ns : List B64} (hf : ∀ n ∈ ns, Rounded.Fin n) : ∀ (k s : ℕ) (sorted : List ℕ), s + k = ns.length →
    sorted.Perm (List.range s) → sorted.Pairwise (Before (itemVal ns)) →
    ∃ p, (sortFrom sorted (List.range' s k)).onFloats ns = some p ∧ p.Perm (List.range ns.length) ∧
      p.Pairwise (Before (itemVal ns)) := by
  intro k
  induction k with
  | zero =>
    intro s sorted hs hp ho
    obtain rfl : s = ns.length := by omega
    exact ⟨sorted, rfl, hp, ho⟩
  | succ k ih =>
    intro s sorted hs hp ho
    have hmem : ∀ q ∈ sorted, q < s := fun q hq => List.mem_range.1 (hp.mem_iff.1 hq)
    rw [List.range'_succ, sortFrom]
    obtain ⟨q, h1, h2, h3, h4⟩ := insertAt_spec hf ho (fun q hq => by have := hmem q hq; omega) (i := s) (by omega)
      (fun p => sortFrom (sorted.insertIdx p s) (List.range' (s + 1) k)) sorted.length 0 sorted.length (by omega) le_rfl (by omega)
      (fun p _ h => by omega) (fun p hp h => by omega)
    rw [h2]
    have e : sorted.insertIdx q s = sorted.take q ++ s :: sorted.drop q := insertIdx_take_drop s sorted q h1
    refine ih (s + 1) _ (by omega) ?_ ?_
    · rw [List.range_succ]
      exact (List.perm_insertIdx s sorted h1).trans ((hp.cons s).trans (List.perm_append_singleton s _).symm)
    · rw [e, List.pairwise_append]
      have hsplit : sorted = sorted.take q ++ sorted.drop q := (List.take_append_drop q sorted).symm
      have ho' := ho
      rw [hsplit, List.pairwise_append] at ho'
      refine ⟨ho'.1, List.pairwise_cons.2 ⟨fun b hb => ?_, ho'.2.1⟩, fun a ha b hb => ?_⟩
      · obtain ⟨n, hn, rfl⟩ := List.getElem_of_mem hb
        rw [List.getElem_drop]
        exact Or.inl (h4 _ _ (by omega))
      · rcases List.mem_cons.1 hb with rfl | hb
        · obtain ⟨n, hn, rfl⟩ := List.getElem_of_mem ha
          rw [List.getElem_take]
          rw [List.length_take] at hn
          have h5 := h3 n (by omega) (by omega)
          have h6 := hmem _ (List.getElem_mem (l := sorted) (n := n) (by omega))
          rcases lt_or_eq_of_le h5 with h7 | h7
          · exact Or.inl h7
          · exact Or.inr ⟨h7, h6⟩
        · exact ho'.2.2 a ha b hb

/-- C93. `sorted(xs)` gives all the numbers, in the order of their nominal values, and in the order of the list `xs` for the numbers
with the same nominal value (finite doubles; binary insertion sort). -/
theorem C93_sorted (cs : List (Cmd B64)) (xs : List (Arg B64)) (ns : List B64) (h : List.Forall₂ (HasNominal cs) xs ns)
    (hf : ∀ n ∈ ns, Rounded.Fin n) (others : List (Cmd B64) → List (Cmd B64)) :
    ∃ p, (sortItems xs.length).onNumbers xs others cs = some p ∧ p.Perm (List.range xs.length) ∧
      p.Pairwise fun i j => ∀ a b, ns[i]? = some a → ns[j]? = some b →
        Rounded.val a < Rounded.val b ∨ (Rounded.val a = Rounded.val b ∧ i < j) := by
  rw [C93_any_algorithm _ xs ns others cs h]
  have hl := h.length_eq
  obtain ⟨p, h1, h2, h3⟩ := sortFrom_spec hf xs.length 0 [] (by omega) (List.Perm.refl _) List.Pairwise.nil
  refine ⟨p, ?_, by rw [hl]; exact h2, h3.imp ?_⟩
  · unfold sortItems
    rw [List.range_eq_range']
    exact h1
  · intro i j hij a b ha hb
    rcases hij with hij | ⟨hij, hlt⟩
    · exact Or.inl ((itemVal_lt hf ha hb).1 hij)
    · exact Or.inr ⟨le_antisymm ((itemVal_le hf ha hb).1 hij.le) ((itemVal_le hf hb ha).1 hij.ge), hlt⟩

/-- x = ufloat(3, 1); y = ufloat(1, 1); z = x - y -/
def exSort : List (Cmd B64) :=
  [.ufloat (.fin (3 * 2 ^ 1074)) 1 none, .ufloat 1 1 none, .binop .sub (.ref 0) (.ref 1)]

/-- The hypotheses, with [x, y, 2.0, z]: `sorted()` gives [y, 2.0, z, x], `min()` gives y and `max()` gives x. -/
example : List.Forall₂ (HasNominal exSort) [.ref 0, .ref 1, .const (.flt (.fin (2 ^ 1075))), .ref 2]
      [.fin (3 * 2 ^ 1074), 1, .fin (2 ^ 1075), .fin (2 ^ 1075)] ∧
    (∀ n ∈ ([.fin (3 * 2 ^ 1074), 1, .fin (2 ^ 1075), .fin (2 ^ 1075)] : List B64), Rounded.Fin n) ∧
    (sortItems 4).onNumbers [.ref 0, .ref 1, .const (.flt (.fin (2 ^ 1075))), .ref 2] (fun _ => [.stdDev (.ref 2)]) exSort =
      some [1, 2, 3, 0] ∧
    (minItem 3).onNumbers [.ref 0, .ref 1, .const (.flt (.fin (2 ^ 1075))), .ref 2] (fun _ => []) exSort = some 1 ∧
    (maxItem 3).onNumbers [.ref 0, .ref 1, .const (.flt (.fin (2 ^ 1075))), .ref 2] (fun _ => []) exSort = some 0 := by
  have hd : ∀ k < 3, sees exSort (.derivatives (.ref k)) ≠ .invalid := by
    intro k hk
    have h : ((after exSort).env.all fun v => match v with | some (.unc _) => true | _ => false) = true := by decide +kernel
    have hl : (after exSort).env.length = 3 := by decide +kernel
    have hg := List.getElem?_eq_getElem (l := (after exSort).env) (i := k) (by omega)
    have h1 := List.all_eq_true.1 h _ (List.getElem_mem (by omega : k < (after exSort).env.length))
    split at h1
    · rename_i u hu
      exact valid_of_evalUnc (u := u) (by simp only [Arg.evalUnc, Arg.eval, hg, hu, Option.join_some])
    · cases h1
  have hn : ∀ k (m : ℤ), (match sees exSort (.nominal (.ref k)) with | .val (.flt y) => decide (y = .fin m) | _ => false) = true →
      sees exSort (.nominal (.ref k)) = .val (.flt (.fin m)) := by
    intro k m h
    generalize sees exSort (.nominal (.ref k)) = o at h
    split at h
    · rw [of_decide_eq_true h]
    · cases h
  refine ⟨.cons (Or.inr ⟨hd 0 (by omega), hn 0 _ (by decide +kernel)⟩) (.cons (Or.inr ⟨hd 1 (by omega), hn 1 _ (by decide +kernel)⟩)
    (.cons (Or.inl rfl) (.cons (Or.inr ⟨hd 2 (by omega), hn 2 _ (by decide +kernel)⟩) .nil))), ?_, by decide +kernel, by decide +kernel,
    by decide +kernel⟩
  intro n hn
  simp only [List.mem_cons, List.not_mem_nil, or_false] at hn
  rcases hn with rfl | rfl | rfl | rfl <;> trivial

/-- The hypotheses of `C93_unchanged`. -/
example : sees [.ufloat (.fin 3 : ZN) (.fin 1) none, .binop .mul (.const (.flt (.fin 2))) (.ref 0)] (.derivatives (.ref 0)) ≠ .invalid ∧
    sees [.ufloat (.fin 3 : ZN) (.fin 1) none, .binop .mul (.const (.flt (.fin 2))) (.ref 0)] (.derivatives (.ref 1)) ≠ .invalid := by
  refine ⟨fun h => ?_, fun h => ?_⟩ <;> cases h

end Unc
