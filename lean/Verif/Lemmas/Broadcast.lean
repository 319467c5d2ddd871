import Mathlib.Data.List.Forall2
import Mathlib.Tactic.Linarith
import Mathlib.Algebra.BigOperators.Group.List.Basic
import Verif.Spec.Broadcast

/-! Lemmas on broadcasting. -/

namespace Unc

set_option autoImplicit false

/-! ### Indices -/

theorem indices_length (s : List ℕ) : (indices s).length = s.prod := by
  induction s with
  | nil => rfl
  | cons d s ih => simp [indices, ih, List.length_flatMap]

theorem flatMap_getElem? {α : Type} (g : ℕ → List α) {n : ℕ} (hn : ∀ i, (g i).length = n) (d i j : ℕ) (hi : i < d) (hj : j < n) :
    ((List.range d).flatMap g)[i * n + j]? = (g i)[j]? := by
  induction d with
  | zero => omega
  | succ d ih =>
    have hl : ((List.range d).flatMap g).length = d * n := by simp [List.length_flatMap, hn]
    rw [List.range_succ, List.flatMap_append]
    by_cases h : i < d
    · rw [List.getElem?_append_left (by rw [hl]; nlinarith), ih h]
    · have : i = d := by omega
      subst this
      rw [List.getElem?_append_right (by rw [hl]; omega), hl]
      simp

theorem cOrder_lt {s I : List ℕ} (h : InShape s I) : cOrder s I < s.prod := by
  induction h with
  | nil => simp [cOrder]
  | @cons i d I s hi _ ih =>
    simp only [cOrder, List.prod_cons]
    nlinarith

theorem indices_get {s I : List ℕ} (h : InShape s I) : (indices s)[cOrder s I]? = some I := by
  induction h with
  | nil => rfl
  | @cons i d I s hi hI ih =>
    simp only [cOrder, indices]
    rw [flatMap_getElem? _ (n := s.prod) (fun i => by simp [indices_length]) d i _ hi (cOrder_lt hI)]
    simp [ih]

theorem mem_indices {s I : List ℕ} : I ∈ indices s ↔ InShape s I := by
  constructor
  · intro h
    induction s generalizing I with
    | nil => simp [indices] at h; subst h; exact .nil
    | cons d s ih =>
      simp only [indices, List.mem_flatMap, List.mem_range, List.mem_map] at h
      obtain ⟨i, hi, J, hJ, rfl⟩ := h
      exact .cons hi (ih hJ)
  · exact fun h => List.mem_of_getElem? (indices_get h)

theorem cOrder_injective {s I J : List ℕ} (hI : InShape s I) (hJ : InShape s J) (h : cOrder s I = cOrder s J) : I = J := by
  have h1 := indices_get hI
  rw [h, indices_get hJ] at h1
  exact (Option.some.inj h1).symm

/-! ### Shapes -/

/-- Length of a dimension, for shapes given from the last dimension. -/
def dimRev (s : List ℕ) (k : ℕ) : ℕ := (s[k]?).getD 1

theorem broadcast2_ok {s t r : List ℕ} (h : broadcast2 s t = .ok r) : r.length = max s.length t.length ∧
    ∀ k, (dimRev s k = 1 ∨ dimRev s k = dimRev r k) ∧ (dimRev t k = 1 ∨ dimRev t k = dimRev r k) ∧
      (dimRev r k = dimRev s k ∨ dimRev r k = dimRev t k) := by
  induction s generalizing t r with
  | nil =>
    simp only [broadcast2, Except.ok.injEq] at h
    subst h
    exact ⟨by simp, fun k => ⟨Or.inl (by simp [dimRev]), Or.inr rfl, Or.inr rfl⟩⟩
  | cons a s ih =>
    cases t with
    | nil =>
      simp only [broadcast2, Except.ok.injEq] at h
      subst h
      exact ⟨by simp, fun k => ⟨Or.inr rfl, Or.inl (by simp [dimRev]), Or.inl rfl⟩⟩
    | cons b t =>
      simp only [broadcast2] at h
      cases h1 : broadcast2 s t with
      | error e => rw [h1] at h; cases h
      | ok q =>
        obtain ⟨i1, i2⟩ := ih h1
        rw [h1] at h
        simp only at h
        have step : ∀ c, r = c :: q → (a = 1 ∨ a = c) → (b = 1 ∨ b = c) → (c = a ∨ c = b) → _ := fun c hc ha hb hab =>
          show r.length = max (a :: s).length (b :: t).length ∧
            ∀ k, (dimRev (a :: s) k = 1 ∨ dimRev (a :: s) k = dimRev r k) ∧ (dimRev (b :: t) k = 1 ∨ dimRev (b :: t) k = dimRev r k) ∧
              (dimRev r k = dimRev (a :: s) k ∨ dimRev r k = dimRev (b :: t) k) from by
          subst hc
          refine ⟨by simp [i1], fun k => ?_⟩
          cases k with
          | zero => simpa [dimRev] using ⟨ha, hb, hab⟩
          | succ k => simpa [dimRev] using i2 k
        split_ifs at h with c1 c2 c3
        · cases h; subst c1; exact step a rfl (Or.inr rfl) (Or.inr rfl) (Or.inl rfl)
        · cases h; exact step b rfl (Or.inl c2) (Or.inr rfl) (Or.inr rfl)
        · cases h; exact step a rfl (Or.inr rfl) (Or.inl c3) (Or.inl rfl)

theorem broadcast2_error {s t : List ℕ} {e : PyErr} (h : broadcast2 s t = .error e) :
    e = .valueError ∧ ∃ k, dimRev s k ≠ dimRev t k ∧ dimRev s k ≠ 1 ∧ dimRev t k ≠ 1 := by
  induction s generalizing t with
  | nil => simp [broadcast2] at h
  | cons a s ih =>
    cases t with
    | nil => simp [broadcast2] at h
    | cons b t =>
      simp only [broadcast2] at h
      cases h1 : broadcast2 s t with
      | error e' =>
        rw [h1] at h
        cases h
        obtain ⟨i1, k, i2⟩ := ih h1
        exact ⟨i1, k + 1, by simpa [dimRev] using i2⟩
      | ok q =>
        rw [h1] at h
        simp only at h
        split_ifs at h with c1 c2 c3
        cases h
        exact ⟨rfl, 0, by simpa [dimRev] using ⟨c1, c2, c3⟩⟩

/-- `IsBroadcast`, for shapes given from the last dimension. -/
structure IsBroadcastRev (ss : List (List ℕ)) (r : List ℕ) : Prop where
  le : ∀ s ∈ ss, s.length ≤ r.length
  attained : r = [] ∨ ∃ s ∈ ss, s.length = r.length
  dims : ∀ k, ∀ s ∈ ss, dimRev s k = 1 ∨ dimRev s k = dimRev r k
  dim : ∀ k, dimRev r k = 1 ∨ ∃ s ∈ ss, dimRev s k = dimRev r k

theorem broadcastRev_ok {ss : List (List ℕ)} {r : List ℕ} (h : broadcastRev ss = .ok r) : IsBroadcastRev ss r := by
  induction ss generalizing r with
  | nil =>
    cases h
    exact ⟨by simp, Or.inl rfl, by simp, fun k => Or.inl (by simp [dimRev])⟩
  | cons s ss ih =>
    simp only [broadcastRev] at h
    cases h1 : broadcastRev ss with
    | error e => rw [h1] at h; cases h
    | ok q =>
      rw [h1] at h
      have i := ih h1
      obtain ⟨l, d⟩ := broadcast2_ok h
      refine ⟨?_, ?_, ?_, ?_⟩
      · intro t ht
        rcases List.mem_cons.1 ht with rfl | ht
        · omega
        · have := i.le t ht; omega
      · by_cases hl : q.length ≤ s.length
        · exact Or.inr ⟨s, by simp, by omega⟩
        · rcases i.attained with rfl | ⟨t, ht, e⟩
          · simp at hl
          · exact Or.inr ⟨t, by simp [ht], by omega⟩
      · intro k t ht
        obtain ⟨d1, d2, d3⟩ := d k
        rcases List.mem_cons.1 ht with rfl | ht
        · exact d1
        · rcases i.dims k t ht with e | e
          · exact Or.inl e
          · rw [e]; exact d2
      · intro k
        obtain ⟨d1, d2, d3⟩ := d k
        rcases d3 with e | e
        · exact Or.inr ⟨s, by simp, e.symm⟩
        · rcases i.dim k with e' | ⟨t, ht, e'⟩
          · exact Or.inl (e.trans e')
          · exact Or.inr ⟨t, by simp [ht], e'.trans e.symm⟩

theorem broadcastRev_error {ss : List (List ℕ)} {e : PyErr} (h : broadcastRev ss = .error e) :
    e = .valueError ∧ ∃ s ∈ ss, ∃ t ∈ ss, ∃ k, dimRev s k ≠ dimRev t k ∧ dimRev s k ≠ 1 ∧ dimRev t k ≠ 1 := by
  induction ss with
  | nil => cases h
  | cons s ss ih =>
    simp only [broadcastRev] at h
    cases h1 : broadcastRev ss with
    | error e' =>
      rw [h1] at h
      cases h
      obtain ⟨i, a, ha, b, hb, k, hk⟩ := ih h1
      exact ⟨i, a, by simp [ha], b, by simp [hb], k, hk⟩
    | ok q =>
      rw [h1] at h
      obtain ⟨i, k, k1, k2, k3⟩ := broadcast2_error h
      rcases (broadcastRev_ok h1).dim k with e' | ⟨t, ht, e'⟩
      · exact absurd e' k3
      · exact ⟨i, s, by simp, t, by simp [ht], k, by rw [e']; exact ⟨k1, k2, k3⟩⟩

theorem dimEnd_eq (s : List ℕ) (k : ℕ) : dimEnd s k = dimRev s.reverse k := rfl

theorem isBroadcast_iff {ss : List (List ℕ)} {r : List ℕ} : IsBroadcast ss r ↔ IsBroadcastRev (ss.map List.reverse) r.reverse := by
  have ex : ∀ P : List ℕ → Prop, (∃ s ∈ ss.map List.reverse, P s) ↔ ∃ s ∈ ss, P s.reverse := fun P =>
    ⟨fun ⟨_, h, hp⟩ => by obtain ⟨s, hs, rfl⟩ := List.mem_map.1 h; exact ⟨s, hs, hp⟩,
     fun ⟨s, h, hp⟩ => ⟨_, List.mem_map_of_mem h, hp⟩⟩
  constructor
  · rintro ⟨h1, h2, h3, h4⟩
    refine ⟨List.forall_mem_map.2 (by simpa using h1), ?_, fun k => List.forall_mem_map.2 (h3 k), fun k => (h4 k).imp_right (ex _).2⟩
    rw [ex]
    simpa using h2
  · rintro ⟨h1, h2, h3, h4⟩
    refine ⟨by simpa using List.forall_mem_map.1 h1, ?_, fun k => List.forall_mem_map.1 (h3 k), fun k => (h4 k).imp_right (ex _).1⟩
    rw [ex] at h2
    simpa using h2

/-! ### Elements -/

theorem alignRev {s r I : List ℕ} (hl : s.length ≤ r.length) (hd : ∀ k, dimRev s k = 1 ∨ dimRev s k = dimRev r k)
    (hI : List.Forall₂ (· < ·) I r) :
    List.Forall₂ (· < ·) (List.zipWith (fun d i => if d = 1 then 0 else i) s I) s := by
  induction s generalizing r I with
  | nil => simp
  | cons a s ih =>
    cases hI with
    | nil => simp at hl
    | @cons i d I r hi hI =>
      simp only [List.zipWith_cons_cons]
      refine .cons ?_ (ih (r := r) (by simpa using hl) (fun k => by simpa [dimRev] using hd (k + 1)) hI)
      have := hd 0
      simp only [dimRev, List.getElem?_cons_zero, Option.getD_some] at this
      split_ifs with h
      · omega
      · omega

theorem align_inShape {ss : List (List ℕ)} {r : List ℕ} (h : IsBroadcast ss r) {s : List ℕ} (hs : s ∈ ss) {I : List ℕ} (hI : InShape r I) :
    InShape s (alignIndex s I) := by
  have h1 := alignRev (s := s.reverse) (r := r.reverse) (I := I.reverse) (by simpa using h.le s hs) (fun k => h.dims k s hs)
    (List.forall₂_reverse_iff.2 hI)
  have := List.forall₂_reverse_iff.2 h1
  simpa [InShape, alignIndex] using this

theorem alignIndex_aligned {s I : List ℕ} (h : s.length ≤ I.length) : Aligned s I (alignIndex s I) := by
  refine ⟨by simp [alignIndex, h], fun k hk => ?_⟩
  have h1 : s.reverse[k]? = some (dimEnd s k) := by
    rw [dimEnd, List.getElem?_eq_getElem (by simpa using hk)]
    rfl
  have h2 : k < I.reverse.length := by simp; omega
  rw [alignIndex, List.reverse_reverse, List.getElem?_zipWith, h1, List.getElem?_eq_getElem h2]
  simp only
  split <;> rfl

theorem get_valid {α : Type} {A : NDArray α} (hA : A.Valid) {I : List ℕ} (hI : InShape A.shape I) : ∃ a, A.get? I = some a ∧ a ∈ A.data := by
  have h := cOrder_lt hI
  rw [← hA] at h
  exact ⟨_, List.getElem?_eq_getElem h, List.getElem_mem h⟩

theorem broadcastGet_valid {α : Type} {A : NDArray α} (hA : A.Valid) {ss : List (List ℕ)} {r : List ℕ} (h : IsBroadcast ss r)
    (hs : A.shape ∈ ss) {I : List ℕ} (hI : InShape r I) : ∃ a, A.broadcastGet? I = some a ∧ a ∈ A.data :=
  get_valid hA (align_inShape h hs hI)

theorem mapRes'_ok {α β : Type} (f : α → PyRes β) (g : α → β) (l : List α) (h : ∀ a ∈ l, f a = .ok (g a)) : mapRes' f l = .ok (l.map g) := by
  induction l with
  | nil => rfl
  | cons a l ih => simp only [mapRes', h a (by simp), ih fun b hb => h b (by simp [hb]), List.map_cons]

theorem indices_pairwise (r : List ℕ) : (indices r).Pairwise (· < ·) := by
  induction r with
  | nil => simp [indices]
  | cons d r ih =>
    rw [indices, List.pairwise_flatMap]
    refine ⟨fun i _ => ?_, ?_⟩
    · rw [List.pairwise_map]
      exact ih.imp fun h => List.cons_lt_cons_iff.2 (Or.inr ⟨rfl, h⟩)
    · refine List.pairwise_lt_range.imp fun h x hx y hy => ?_
      obtain ⟨x, -, rfl⟩ := List.mem_map.1 hx
      obtain ⟨y, -, rfl⟩ := List.mem_map.1 hy
      exact List.cons_lt_cons_iff.2 (Or.inl h)

/-- The elements of an array, in C order. -/
theorem data_eq_map {α : Type} {A : NDArray α} (hA : A.Valid) {X : List ℕ → α} (hX : ∀ I, InShape A.shape I → A.get? I = some (X I)) :
    A.data = (indices A.shape).map X := by
  refine List.ext_getElem? fun k => ?_
  by_cases hk : k < (indices A.shape).length
  · have hI : InShape A.shape (indices A.shape)[k] := mem_indices.1 (List.getElem_mem hk)
    have h1 := indices_get hI
    have h2 : cOrder A.shape (indices A.shape)[k] = k := by
      have hlt := cOrder_lt hI
      rw [← indices_length] at hlt
      rw [List.getElem?_eq_getElem hlt, Option.some.injEq] at h1
      have hnd : (indices A.shape).Nodup := by
        refine List.Pairwise.imp (fun {a b} h => ?_) (indices_pairwise A.shape)
        rintro rfl
        exact List.lt_irrefl _ h
      exact (hnd.getElem_inj_iff).1 h1
    have h3 := hX _ hI
    rw [NDArray.get?, h2] at h3
    rw [h3, List.getElem?_map, List.getElem?_eq_getElem hk]
    rfl
  · have : A.data.length ≤ k := by rw [hA, ← indices_length]; omega
    rw [List.getElem?_eq_none this, List.getElem?_eq_none (by simpa using Nat.le_of_not_lt hk)]

end Unc
