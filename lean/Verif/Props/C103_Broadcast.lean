import Verif.Lemmas.Broadcast
import Verif.Props.C52_Arrays
import Verif.Props.C55_Unumpy

/-
C103: arrays with any number of dimensions and broadcasting.
-/

namespace Unc

set_option autoImplicit false

/-! ### Shapes -/

/-- The shape of the result is unique. -/
theorem C103_shape_unique {ss : List (List ℕ)} {r q : List ℕ} (hr : IsBroadcast ss r) (hq : IsBroadcast ss q) : r = q := by
  have hl : r.length = q.length := by
    have h1 : r.length ≤ q.length := by
      rcases hr.attained with rfl | ⟨s, hs, e⟩
      · simp
      · have := hq.le s hs; omega
    have h2 : q.length ≤ r.length := by
      rcases hq.attained with rfl | ⟨s, hs, e⟩
      · simp
      · have := hr.le s hs; omega
    omega
  have hd : ∀ k, dimEnd r k = dimEnd q k := by
    intro k
    rcases hr.dim k with e | ⟨s, hs, e⟩
    · rcases hq.dim k with e' | ⟨t, ht, e'⟩
      · rw [e, e']
      · rcases hr.dims k t ht with f | f
        · rw [e, ← e', f]
        · rw [← f, e']
    · rcases hq.dims k s hs with f | f
      · rcases hq.dim k with e' | ⟨t, ht, e'⟩
        · rw [e', ← e, f]
        · rcases hr.dims k t ht with f' | f'
          · rw [← e', f', ← e, f]
          · rw [← f', e']
      · rw [← e, f]
  apply List.reverse_injective
  refine List.ext_getElem (by simpa using hl) fun k h1 h2 => ?_
  have := hd k
  simp only [dimEnd, List.getElem?_eq_getElem h1, List.getElem?_eq_getElem h2, Option.getD_some] at this
  exact this

/-- Broadcasting raises `ValueError` if and only if two of the shapes have, in some dimension, different lengths, both different from 1. -/
theorem C103_shape_error {ss : List (List ℕ)} (e : PyErr) : broadcastShapes ss = .error e ↔
    e = .valueError ∧ ∃ s ∈ ss, ∃ t ∈ ss, ∃ k, dimEnd s k ≠ dimEnd t k ∧ dimEnd s k ≠ 1 ∧ dimEnd t k ≠ 1 := by
  unfold broadcastShapes
  constructor
  · intro h
    cases h1 : broadcastRev (ss.map List.reverse) with
    | ok r => rw [h1] at h; cases h
    | error e' =>
      rw [h1] at h
      cases h
      obtain ⟨i, s, hs, t, ht, k, hk⟩ := broadcastRev_error h1
      obtain ⟨s, hs', rfl⟩ := List.mem_map.1 hs
      obtain ⟨t, ht', rfl⟩ := List.mem_map.1 ht
      exact ⟨i, s, hs', t, ht', k, hk⟩
  · rintro ⟨rfl, s, hs, t, ht, k, h1, h2, h3⟩
    cases h : broadcastRev (ss.map List.reverse) with
    | error e' => rw [(broadcastRev_error h).1]
    | ok r =>
      have hb : IsBroadcast ss r.reverse := isBroadcast_iff.2 (by rw [List.reverse_reverse]; exact broadcastRev_ok h)
      have a := (hb.dims k s hs).resolve_left h2
      have b := (hb.dims k t ht).resolve_left h3
      exact absurd (a.trans b.symm) h1

/-- Otherwise, the result has the shape given by the rules of NumPy. -/
theorem C103_shape {ss : List (List ℕ)} {r : List ℕ} : broadcastShapes ss = .ok r ↔ IsBroadcast ss r := by
  have hok : ∀ q, broadcastShapes ss = .ok q → IsBroadcast ss q := by
    intro q h
    unfold broadcastShapes at h
    cases h1 : broadcastRev (ss.map List.reverse) with
    | error e => rw [h1] at h; cases h
    | ok p =>
      rw [h1] at h
      cases h
      exact isBroadcast_iff.2 (by rw [List.reverse_reverse]; exact broadcastRev_ok h1)
  refine ⟨hok r, fun h => ?_⟩
  cases h1 : broadcastShapes ss with
  | ok q => rw [C103_shape_unique h (hok q h1)]
  | error e =>
    obtain ⟨-, s, hs, t, ht, k, k1, k2, k3⟩ := (C103_shape_error e).1 h1
    exact absurd (((h.dims k s hs).resolve_left k2).trans ((h.dims k t ht).resolve_left k3).symm) k1

variable {F : Type} [PyMath F] [ExactLin F]

/-! ### Creation of arrays -/

/-- The references to the results of the commands. -/
theorem refs_get {α : Type} {l : List α} {r : List ℕ} (hl : l.length = r.prod) (base : ℕ) {I : List ℕ} (hI : InShape r I) :
    (⟨r, (List.range l.length).map fun k => .ref (base + k)⟩ : NDArray (Arg F)).get? I = some (.ref (base + cOrder r I)) := by
  have := cOrder_lt hI
  simp only [NDArray.get?, List.getElem?_map]
  rw [List.getElem?_range (by omega)]
  rfl

/-- **C103**: `uarray(nominal_values, std_devs)`, after any history, with arrays (or numbers) of any dimensions and of any shapes which are
compatible: the result has the shape of the broadcasting, and its elements are *different* new variables (even if they come from the same
number, as in `uarray([1, 2, 3], 0.1)`), each with the nominal value and the standard deviation of its place. -/
theorem C103_uarray (cs : List (Cmd F)) {noms stds : NDArray F} (hn : noms.Valid) (hs : stds.Valid) {r : List ℕ}
    (hr : IsBroadcast [noms.shape, stds.shape] r) (hσ : ∀ s ∈ stds.data, specBadStd s = false) :
    ∃ (cmds : List (Cmd F)) (x : NDArray (Arg F)) (v : List ℕ → VarId),
      uarrayND (after cs).env.length noms stds = .ok (cmds, x) ∧ x.shape = r ∧ x.Valid ∧
      (∀ I, InShape r I → ∃ e n s J K, x.get? I = some e ∧
        Aligned noms.shape I J ∧ noms.get? J = some n ∧ Aligned stds.shape I K ∧ stds.get? K = some s ∧
        sees (cs ++ cmds) (.nominal e) = .val (.flt n) ∧ sees (cs ++ cmds) (.stdDev e) = .val (.flt s) ∧
        sees (cs ++ cmds) (.derivatives e) = .dict (Lin.single (v I))) ∧
      (∀ I J, InShape r I → InShape r J → v I = v J → I = J) ∧
      ∀ I, InShape r I → ∀ y D, sees cs (.derivatives y) = .dict D → D (v I) = none := by
  obtain ⟨st, hst⟩ := Reaches.exists cs
  have gn : ∀ I, ∃ n, InShape r I → noms.broadcastGet? I = some n := fun I => by
    by_cases h : InShape r I
    · obtain ⟨n, h1, -⟩ := broadcastGet_valid hn hr (by simp) h
      exact ⟨n, fun _ => h1⟩
    · exact ⟨0, fun h' => absurd h' h⟩
  have gs : ∀ I, ∃ n, InShape r I → stds.broadcastGet? I = some n ∧ n ∈ stds.data := fun I => by
    by_cases h : InShape r I
    · obtain ⟨n, h1, h2⟩ := broadcastGet_valid hs hr (by simp) h
      exact ⟨n, fun _ => ⟨h1, h2⟩⟩
    · exact ⟨0, fun h' => absurd h' h⟩
  choose N hN using gn
  choose S hS using gs
  set l : List (F × F × Option String) := (indices r).map fun I => (N I, S I, none) with hl
  have hu := hst.ufloats l (by
    intro a ha
    obtain ⟨I, hI, rfl⟩ := List.mem_map.1 ha
    exact hσ _ (hS I (mem_indices.1 hI)).2)
  have hlen := hst.env_length
  have hcm : l.map (fun p => Cmd.ufloat p.1 p.2.1 p.2.2) = ((indices r).map fun I => (N I, S I)).map fun p => .ufloat p.1 p.2 none := by
    simp [hl]
  rw [hcm] at hu
  have hget : ∀ I, InShape r I → l[cOrder r I]? = some (N I, S I, none) := fun I hI => by
    rw [hl, List.getElem?_map, indices_get hI]
    rfl
  refine ⟨((indices r).map fun I => (N I, S I)).map fun p => .ufloat p.1 p.2 none,
    ⟨r, (List.range ((indices r).map fun I => (N I, S I)).length).map fun k => .ref ((after cs).env.length + k)⟩,
    fun I => st.vars.length + cOrder r I, ?_, rfl, ?_, fun I hI => ?_, ?_, ?_⟩
  · unfold uarrayND
    simp only [C103_shape.2 hr]
    rw [mapRes'_ok _ N _ fun I hI => by simp only [NDArray.pick, hN I (mem_indices.1 hI)],
      mapRes'_ok _ S _ fun I hI => by simp only [NDArray.pick, (hS I (mem_indices.1 hI)).1]]
    simp only [List.zip_map', ]
    rw [if_neg]
    simp only [List.any_map, List.any_eq_true, not_exists, not_and, Function.comp]
    intro I hI
    have := hσ _ (hS I (mem_indices.1 hI)).2
    simp only [specBadStd] at this
    simp [this]
  · simp [NDArray.Valid, indices_length]
  · have hll : I.length = r.length := hI.length_eq
    have hsv : (Arg.ref ((after cs).env.length + cOrder r I) : Arg F).seval (st.env ++ l.mapIdx fun k p =>
        some (.unc ⟨p.1, Lin.single (st.vars.length + k), some (st.vars.length + k)⟩)) =
        some (.unc ⟨N I, Lin.single (st.vars.length + cOrder r I), some (st.vars.length + cOrder r I)⟩) := by
      simp only [Arg.seval, ← hlen]
      rw [List.getElem?_append_right (by omega)]
      simp [hget I hI]
    have hvar : (st.vars ++ l.map fun p => (⟨p.1, p.2.1, p.2.2⟩ : SVar F))[st.vars.length + cOrder r I]? =
        some ⟨N I, S I, none⟩ := by
      rw [List.getElem?_append_right (by omega)]
      simp [hget I hI]
    refine ⟨_, N I, S I, _, _, refs_get (by simp [indices_length]) _ hI,
      alignIndex_aligned (by rw [hll]; exact hr.le _ (by simp)), hN I hI,
      alignIndex_aligned (by rw [hll]; exact hr.le _ (by simp)), (hS I hI).1, ?_, ?_, ?_⟩
    · rw [(hu.read (c := .nominal _) rfl).1]
      simp only [SState.step, hsv]
      rfl
    · rw [(hu.read (c := .stdDev _) rfl).1]
      simp only [SState.step, hsv, specStdDev, hvar]
      rfl
    · rw [(hu.read (c := .derivatives _) rfl).1]
      simp only [SState.step, SState.read, Arg.sevalUnc, hsv]
  · intro I J hI hJ h
    exact cOrder_injective hI hJ (by simpa using h)
  · intro I hI y D hD
    obtain ⟨Q, e1, rfl⟩ := hst.derivatives hD
    by_contra hne
    obtain ⟨d, hd⟩ := Option.ne_none_iff_exists'.mp hne
    have := hst.wf.keys Q (sevalUnc_mem e1) _ d hd
    simp at this

omit [ExactLin F] in
/-- **C103**: with shapes that are not compatible, `uarray()` raises `ValueError`, and no number is created. -/
theorem C103_uarray_error (base : ℕ) (noms stds : NDArray F) (k : ℕ) (h1 : dimEnd noms.shape k ≠ dimEnd stds.shape k)
    (h2 : dimEnd noms.shape k ≠ 1) (h3 : dimEnd stds.shape k ≠ 1) : uarrayND base noms stds = .error .valueError := by
  have := (C103_shape_error (ss := [noms.shape, stds.shape]) .valueError).2
    ⟨rfl, _, by simp, _, by simp, k, h1, h2, h3⟩
  simp only [uarrayND, this]

omit [ExactLin F] in
/-- **C103**: `NegativeStdDev` is raised when the standard deviation of some element of the result is negative. -/
theorem C103_uarray_negative (base : ℕ) {noms stds : NDArray F} (hn : noms.Valid) (hs : stds.Valid) {r : List ℕ}
    (hr : IsBroadcast [noms.shape, stds.shape] r) {I K : List ℕ} (hI : InShape r I) (hK : Aligned stds.shape I K) {s : F}
    (hg : stds.get? K = some s) (hneg : specBadStd s = true) : uarrayND base noms stds = .error .negativeStdDev := by
  have gn : ∀ I, ∃ n, InShape r I → noms.broadcastGet? I = some n := fun I => by
    by_cases h : InShape r I
    · obtain ⟨n, h1, -⟩ := broadcastGet_valid hn hr (by simp) h
      exact ⟨n, fun _ => h1⟩
    · exact ⟨0, fun h' => absurd h' h⟩
  have gs : ∀ I, ∃ n, InShape r I → stds.broadcastGet? I = some n := fun I => by
    by_cases h : InShape r I
    · obtain ⟨n, h1, -⟩ := broadcastGet_valid hs hr (by simp) h
      exact ⟨n, fun _ => h1⟩
    · exact ⟨0, fun h' => absurd h' h⟩
  choose N hN using gn
  choose S hS using gs
  have hle : stds.shape.length ≤ I.length := by
    have := hr.le stds.shape (by simp)
    rw [hI.length_eq]; exact this
  have hKe : K = alignIndex stds.shape I := by
    have h2 := alignIndex_aligned hle
    apply List.reverse_injective
    refine List.ext_getElem? fun k => ?_
    by_cases hk : k < stds.shape.length
    · rw [hK.2 k hk, h2.2 k hk]
    · rw [List.getElem?_eq_none (by simp [hK.1]; omega), List.getElem?_eq_none (by simp [h2.1]; omega)]
  have hSI : S I = s := by
    have := hS I hI
    rw [NDArray.broadcastGet?, ← hKe, hg] at this
    exact (Option.some.inj this).symm
  unfold uarrayND
  simp only [C103_shape.2 hr]
  rw [mapRes'_ok _ N _ fun I hI => by simp only [NDArray.pick, hN I (mem_indices.1 hI)],
    mapRes'_ok _ S _ fun I hI => by simp only [NDArray.pick, hS I (mem_indices.1 hI)]]
  simp only [List.zip_map']
  rw [if_pos]
  simp only [List.any_map, List.any_eq_true, Function.comp]
  exact ⟨I, mem_indices.2 hI, by rw [hSI]; simpa [specBadStd] using hneg⟩

/-! ### Nominal values and standard deviations -/

/-- **C103**: `nominal_values(A)` has the shape of `A`, and contains the nominal values of its elements. -/
theorem C103_nominal_values (cs : List (Cmd F)) {A : NDArray (Arg F)} (hA : A.Valid) (N : List ℕ → F)
    (h : ∀ I, InShape A.shape I → ∃ x, A.get? I = some x ∧ sees cs (.nominal x) = .val (.flt (N I))) :
    ∃ B : NDArray F, (after cs).nominalValuesND A = .ok B ∧ B.shape = A.shape ∧ B.Valid ∧
      ∀ I, InShape A.shape I → B.get? I = some (N I) := by
  have hx : ∀ I, ∃ x, InShape A.shape I → A.get? I = some x ∧ sees cs (.nominal x) = .val (.flt (N I)) := fun I => by
    by_cases hI : InShape A.shape I
    · obtain ⟨x, hx⟩ := h I hI; exact ⟨x, fun _ => hx⟩
    · exact ⟨.ref 0, fun h' => absurd h' hI⟩
  choose X hX using hx
  have hd := data_eq_map hA fun I hI => (hX I hI).1
  have h1 := C52_nominal_values cs (p := 1) (A := fun _ (j : Fin (indices A.shape).length) => X (indices A.shape)[j])
    (N := fun _ j => N (indices A.shape)[j]) fun _ j => (hX _ (mem_indices.1 (List.getElem_mem j.2))).2
  have e : ∀ {β : Type} (g : List ℕ → β), (arr fun (_ : Fin 1) (j : Fin (indices A.shape).length) => g (indices A.shape)[j]) =
      [(indices A.shape).map g] := by
    intro β g
    simp only [arr, List.ofFn_succ, List.ofFn_zero]
    congr 1
    exact List.ext_getElem (by simp) fun k _ _ => by simp
  rw [e, e, ← hd] at h1
  refine ⟨⟨A.shape, (indices A.shape).map N⟩, ?_, rfl, by simp [NDArray.Valid, indices_length], fun I hI => ?_⟩
  · simp [Machine.nominalValuesND, h1]
  · simp [NDArray.get?, indices_get hI]

/-- **C103**: `std_devs(A)` has the shape of `A`, and contains the standard deviations of its elements. -/
theorem C103_std_devs (cs : List (Cmd F)) {A : NDArray (Arg F)} (hA : A.Valid) (σ : List ℕ → F)
    (h : ∀ I, InShape A.shape I → ∃ x, A.get? I = some x ∧ sees cs (.stdDev x) = .val (.flt (σ I))) :
    ∃ B : NDArray F, ((after cs).stdDevsND A).2 = .ok B ∧ B.shape = A.shape ∧ B.Valid ∧
      ∀ I, InShape A.shape I → B.get? I = some (σ I) := by
  have hx : ∀ I, ∃ x, InShape A.shape I → A.get? I = some x ∧ sees cs (.stdDev x) = .val (.flt (σ I)) := fun I => by
    by_cases hI : InShape A.shape I
    · obtain ⟨x, hx⟩ := h I hI; exact ⟨x, fun _ => hx⟩
    · exact ⟨.ref 0, fun h' => absurd h' hI⟩
  choose X hX using hx
  have hd := data_eq_map hA fun I hI => (hX I hI).1
  have h1 := C52_std_devs cs (p := 1) (A := fun _ (j : Fin (indices A.shape).length) => X (indices A.shape)[j])
    (σ := fun _ j => σ (indices A.shape)[j]) fun _ j => (hX _ (mem_indices.1 (List.getElem_mem j.2))).2
  have e : ∀ {β : Type} (g : List ℕ → β), (arr fun (_ : Fin 1) (j : Fin (indices A.shape).length) => g (indices A.shape)[j]) =
      [(indices A.shape).map g] := by
    intro β g
    simp only [arr, List.ofFn_succ, List.ofFn_zero]
    congr 1
    exact List.ext_getElem (by simp) fun k _ _ => by simp
  rw [e, e, ← hd] at h1
  refine ⟨⟨A.shape, (indices A.shape).map σ⟩, ?_, rfl, by simp [NDArray.Valid, indices_length], fun I hI => ?_⟩
  · unfold Machine.stdDevsND
    generalize (after cs).stdDevs [A.data] = z at h1
    obtain ⟨m, z⟩ := z
    simp only at h1
    simp [h1]
  · simp [NDArray.get?, indices_get hI]

/-- **C103**: `nominal_values(uarray(noms, stds))` and `std_devs(uarray(noms, stds))` give back the arguments, repeated where needed. -/
theorem C103_round_trip (cs : List (Cmd F)) {noms stds : NDArray F} (hn : noms.Valid) (hs : stds.Valid) {r : List ℕ}
    (hr : IsBroadcast [noms.shape, stds.shape] r) (hσ : ∀ s ∈ stds.data, specBadStd s = false) :
    ∃ (cmds : List (Cmd F)) (x : NDArray (Arg F)) (N S : NDArray F), uarrayND (after cs).env.length noms stds = .ok (cmds, x) ∧
      (after (cs ++ cmds)).nominalValuesND x = .ok N ∧ ((after (cs ++ cmds)).stdDevsND x).2 = .ok S ∧
      N.shape = r ∧ S.shape = r ∧
      (∀ I, InShape r I → ∃ J, Aligned noms.shape I J ∧ N.get? I = noms.get? J) ∧
      ∀ I, InShape r I → ∃ K, Aligned stds.shape I K ∧ S.get? I = stds.get? K := by
  obtain ⟨cmds, x, v, h1, h2, h3, h4, -⟩ := C103_uarray cs hn hs hr hσ
  have hex : ∀ I, ∃ n s, InShape r I → ∃ e J K, x.get? I = some e ∧
        Aligned noms.shape I J ∧ noms.get? J = some n ∧ Aligned stds.shape I K ∧ stds.get? K = some s ∧
        sees (cs ++ cmds) (.nominal e) = .val (.flt n) ∧ sees (cs ++ cmds) (.stdDev e) = .val (.flt s) := fun I => by
    by_cases hI : InShape r I
    · obtain ⟨e, n, s, J, K, k1, k2, k3, k4, k5, k6, k7, -⟩ := h4 I hI
      exact ⟨n, s, fun _ => ⟨e, J, K, k1, k2, k3, k4, k5, k6, k7⟩⟩
    · exact ⟨0, 0, fun h' => absurd h' hI⟩
  choose n s hns using hex
  obtain ⟨N, a1, a2, -, a4⟩ := C103_nominal_values (cs ++ cmds) h3 n fun I hI => by
    obtain ⟨e, J, K, k1, k2, k3, k4, k5, k6, k7⟩ := hns I (h2 ▸ hI)
    exact ⟨e, k1, k6⟩
  obtain ⟨S, b1, b2, -, b4⟩ := C103_std_devs (cs ++ cmds) h3 s fun I hI => by
    obtain ⟨e, J, K, k1, k2, k3, k4, k5, k6, k7⟩ := hns I (h2 ▸ hI)
    exact ⟨e, k1, k7⟩
  refine ⟨cmds, x, N, S, h1, a1, b1, a2.trans h2, b2.trans h2, fun I hI => ?_, fun I hI => ?_⟩
  · obtain ⟨e, J, K, k1, k2, k3, k4, k5, k6, k7⟩ := hns I hI
    exact ⟨J, k2, by rw [a4 I (h2.symm ▸ hI), k3]⟩
  · obtain ⟨e, J, K, k1, k2, k3, k4, k5, k6, k7⟩ := hns I hI
    exact ⟨K, k4, by rw [b4 I (h2.symm ▸ hI), k5]⟩

/-! ### Functions of arrays -/

omit [ExactLin F] in
/-- The arguments of the calls. -/
theorem args_exist (As : List (NDArray (Arg F))) (hA : ∀ A ∈ As, A.Valid) {r : List ℕ} (hr : IsBroadcast (As.map NDArray.shape) r) :
    ∀ I, ∃ args, InShape r I → mapRes' (fun A => NDArray.pick A I) As = .ok args ∧
      List.Forall₂ (fun A x => ∃ J, Aligned A.shape I J ∧ A.get? J = some x) As args := by
  intro I
  by_cases hI : InShape r I
  · have hll : I.length = r.length := hI.length_eq
    have : ∀ l : List (NDArray (Arg F)), l ⊆ As → ∃ args,
        mapRes' (fun A => NDArray.pick A I) l = .ok args ∧
        List.Forall₂ (fun A x => ∃ J, Aligned A.shape I J ∧ A.get? J = some x) l args := by
      intro l
      induction l with
      | nil => exact fun _ => ⟨[], rfl, .nil⟩
      | cons A l ih =>
        intro hl
        obtain ⟨args, i1, i2⟩ := ih fun a ha => hl (by simp [ha])
        have hm : A ∈ As := hl (by simp)
        obtain ⟨a, h1, -⟩ := broadcastGet_valid (hA A hm) hr (List.mem_map_of_mem hm) hI
        have hp : A.pick I = .ok a := by simp only [NDArray.pick, h1]
        refine ⟨a :: args, by simp only [mapRes', hp, i1], .cons ⟨_, alignIndex_aligned ?_, h1⟩ i2⟩
        rw [hll]
        exact hr.le _ (List.mem_map_of_mem hm)
    obtain ⟨args, h⟩ := this As fun _ h => h
    exact ⟨args, fun _ => h⟩
  · exact ⟨[], fun h => absurd h hI⟩

/-- **C103**: the functions of `unumpy` (for instance `unumpy.arctan2(A, B)`), after any history, with any number of arrays (or
numbers) of any dimensions and of any shapes which are compatible: the result has the shape of the broadcasting, and each element is seen like the
result of `umath.f()` for the elements of the arrays at its place (same nominal value, same derivatives). -/
theorem C103_functions (cs : List (Cmd F)) (f : ℕ) (As : List (NDArray (Arg F))) (hA : ∀ A ∈ As, A.Valid) {r : List ℕ}
    (hr : IsBroadcast (As.map NDArray.shape) r)
    (hok : ∀ I args, InShape r I → List.Forall₂ (fun A x => ∃ J, Aligned A.shape I J ∧ A.get? J = some x) As args →
      sees cs (.call f args []) = .done) :
    ∃ (cmds : List (Cmd F)) (x : NDArray (Arg F)),
      vectorizedND (fun args => .call f args []) (after cs).env.length As = .ok (cmds, x) ∧ x.shape = r ∧ x.Valid ∧
      ∀ I, InShape r I → ∃ e args, x.get? I = some e ∧
        List.Forall₂ (fun A x => ∃ J, Aligned A.shape I J ∧ A.get? J = some x) As args ∧
        ∀ a, SeenAs (cs ++ [.call f args []]) (next cs) a → SeenAs (cs ++ cmds) e a := by
  obtain ⟨st, hst⟩ := Reaches.exists cs
  have hlen := hst.env_length
  have key := args_exist As hA hr
  choose X hX using key
  have hst' : ∀ I, ∃ q, InShape r I → StableCmd st (.call f (X I) []) q := fun I => by
    by_cases hI : InShape r I
    · obtain ⟨q, hq⟩ := stable_call (s := st) (f := f) (args := X I) (by
        rw [← (hst.snoc (.call f (X I) []) rfl).1]
        exact hok I _ hI (hX I hI).2)
      exact ⟨q, fun _ => hq⟩
    · exact ⟨.plain .notImpl, fun h => absurd h hI⟩
  choose q hq using hst'
  have h1 := (show Reaches cs { st with env := st.env ++ [] } by simpa using hst).stables (indices r)
    (fun I => .call f (X I) []) q (fun I hI => hq I (mem_indices.1 hI))
  refine ⟨((indices r).map X).map fun args => .call f args [],
    ⟨r, (List.range ((indices r).map X).length).map fun k => .ref ((after cs).env.length + k)⟩, ?_, rfl, ?_, fun I hI => ?_⟩
  · unfold vectorizedND
    simp only [C103_shape.2 hr]
    rw [mapRes'_ok _ X _ fun I hI => (hX I (mem_indices.1 hI)).1]
  · simp [NDArray.Valid, indices_length]
  · refine ⟨_, X I, refs_get (by simp [indices_length]) _ hI, (hX I hI).2, fun a ha => ?_⟩
    obtain ⟨-, h2⟩ := hst.snoc (.call f (X I) []) rfl
    have e := (hq I hI).2 []
    simp only [List.append_nil] at e
    rw [e] at h2
    obtain ⟨sv, k1, k2⟩ := h2.seen ha
    have k3 : (next cs).seval (st.env ++ [some (q I)]) = some (q I) := by
      simp [next, Arg.seval, ← hlen]
    rw [k3] at k1
    cases k1
    rw [← k2, List.map_map]
    refine Reaches.seenAs h1 ?_
    simp only [Arg.seval, ← hlen]
    rw [List.getElem?_append_right (by omega)]
    simp [indices_get hI]

theorem Reaches.runCalls {cs : List (Cmd F)} {s : SState F} {l0 : List (Option (SVal F))}
    (h : Reaches cs { s with env := s.env ++ l0 }) {ι : Type} (l : List ι) (c : ι → Cmd F) (r : ι → SVal F)
    (hl : ∀ i ∈ l, StableCmd s (c i) (r i)) (rest : List (Cmd F)) :
    (after cs).runCalls (l.map c ++ rest) = (after (cs ++ l.map c)).runCalls rest := by
  induction l generalizing cs l0 with
  | nil => simp
  | cons i l ih =>
    obtain ⟨hc, hst⟩ := hl i (by simp)
    obtain ⟨h0, h1⟩ := h.snoc (c i) hc
    rw [hst l0] at h0
    rw [hst l0, List.append_assoc] at h1
    have h2 := ih h1 (fun j hj => hl j (by simp [hj]))
    rw [List.map_cons, List.cons_append, Machine.runCalls]
    have e : (after cs).step (c i) = (after (cs ++ [c i]), .done) := Prod.ext (after_snoc' cs (c i)).symm h0
    rw [e]
    simp only [h2, List.append_assoc, List.singleton_append]

/-- **C103**: when no call raises an exception, the call of the function of `unumpy` ends normally and returns the array of `C103_functions`. -/
theorem C103_call (cs : List (Cmd F)) (f : ℕ) (As : List (NDArray (Arg F))) (hA : ∀ A ∈ As, A.Valid) {r : List ℕ}
    (hr : IsBroadcast (As.map NDArray.shape) r)
    (hok : ∀ I args, InShape r I → List.Forall₂ (fun A x => ∃ J, Aligned A.shape I J ∧ A.get? J = some x) As args →
      sees cs (.call f args []) = .done) :
    ∃ (cmds : List (Cmd F)) (x : NDArray (Arg F)),
      (after cs).callND f As = (after (cs ++ cmds), .ok x) ∧ x.shape = r ∧ x.Valid ∧
      ∀ I, InShape r I → ∃ e args, x.get? I = some e ∧
        List.Forall₂ (fun A x => ∃ J, Aligned A.shape I J ∧ A.get? J = some x) As args ∧
        ∀ a, SeenAs (cs ++ [.call f args []]) (next cs) a → SeenAs (cs ++ cmds) e a := by
  obtain ⟨cmds, x, h1, h2⟩ := C103_functions cs f As hA hr hok
  refine ⟨cmds, x, ?_, h2⟩
  obtain ⟨st, hst⟩ := Reaches.exists cs
  choose X hX using args_exist As hA hr
  have hst' : ∀ I, ∃ q, InShape r I → StableCmd st (.call f (X I) []) q := fun I => by
    by_cases hI : InShape r I
    · obtain ⟨q, hq⟩ := stable_call (s := st) (f := f) (args := X I) (by
        rw [← (hst.snoc (.call f (X I) []) rfl).1]
        exact hok I _ hI (hX I hI).2)
      exact ⟨q, fun _ => hq⟩
    · exact ⟨.plain .notImpl, fun h => absurd h hI⟩
  choose q hq using hst'
  have h3 := (show Reaches cs { st with env := st.env ++ [] } by simpa using hst).runCalls (indices r)
    (fun I => .call f (X I) []) q (fun I hI => hq I (mem_indices.1 hI)) []
  have hc : cmds = (indices r).map fun I => .call f (X I) [] := by
    unfold vectorizedND at h1
    simp only [C103_shape.2 hr] at h1
    rw [mapRes'_ok _ X _ fun I hI => (hX I (mem_indices.1 hI)).1] at h1
    simp only [Except.ok.injEq, Prod.mk.injEq] at h1
    rw [← h1.1, List.map_map]
    rfl
  unfold Machine.callND
  rw [h1]
  simp only
  rw [List.append_nil, ← hc] at h3
  rw [h3]
  rfl

/-- **C103**: when a call raises an exception, and the calls for the previous elements (in the order of the indices) do not, the call of the
function of `unumpy` raises this exception, and the quantities that exist do not change. -/
theorem C103_exception (cs : List (Cmd F)) (f : ℕ) (As : List (NDArray (Arg F))) (hA : ∀ A ∈ As, A.Valid) {r : List ℕ}
    (hr : IsBroadcast (As.map NDArray.shape) r) {I : List ℕ} (hI : InShape r I) (e : PyErr)
    (herr : ∀ args, List.Forall₂ (fun A x => ∃ J, Aligned A.shape I J ∧ A.get? J = some x) As args →
      sees cs (.call f args []) = .err e)
    (hok : ∀ J args, InShape r J → J < I → List.Forall₂ (fun A x => ∃ K, Aligned A.shape J K ∧ A.get? K = some x) As args →
      sees cs (.call f args []) = .done) :
    ∃ cmds : List (Cmd F), (after cs).callND f As = (after (cs ++ cmds), .error e) ∧
      ∀ y a, SeenAs cs y a → SeenAs (cs ++ cmds) y a := by
  obtain ⟨st, hst⟩ := Reaches.exists cs
  choose X hX using args_exist As hA hr
  obtain ⟨pre, post, hsplit⟩ := List.append_of_mem (mem_indices.2 hI)
  have hlt : ∀ J ∈ pre, InShape r J ∧ J < I := by
    intro J hJ
    refine ⟨mem_indices.1 (by rw [hsplit]; simp [hJ]), ?_⟩
    have := indices_pairwise r
    rw [hsplit, List.pairwise_append] at this
    exact this.2.2 J hJ I (by simp)
  have hst' : ∀ J, ∃ q, J ∈ pre → StableCmd st (.call f (X J) []) q := fun J => by
    by_cases hJ : J ∈ pre
    · obtain ⟨k1, k2⟩ := hlt J hJ
      obtain ⟨q, hq⟩ := stable_call (s := st) (f := f) (args := X J) (by
        rw [← (hst.snoc (.call f (X J) []) rfl).1]
        exact hok J _ k1 k2 (hX J k1).2)
      exact ⟨q, fun _ => hq⟩
    · exact ⟨.plain .notImpl, fun h => absurd h hJ⟩
  choose q hq using hst'
  have hst0 : Reaches cs { st with env := st.env ++ [] } := by simpa using hst
  have h1 := hst0.stables pre (fun J => .call f (X J) []) q hq
  have h3 := hst0.runCalls pre (fun J => .call f (X J) []) q hq
    (.call f (X I) [] :: post.map fun J => .call f (X J) [])
  have h4 : ∀ l, (({ st with env := st.env ++ l } : SState F).step (.call f (X I) [])) =
      ({ st with env := st.env ++ l ++ [none] }, .err e) := by
    intro l
    have h5 := herr _ (hX I hI).2
    rw [(hst.snoc (.call f (X I) []) rfl).1] at h5
    simp only [SState.step] at h5 ⊢
    cases hf : st.fns[f]? with
    | none => simp [hf, SState.invalid] at h5
    | some df =>
      cases ha : evalArgs (Arg.seval st.env) (X I) with
      | none => simp [hf, ha, SState.invalid] at h5
      | some a =>
        simp only [hf, ha, evalArgs] at h5
        simp only [sevalArgs_append ha, evalArgs]
        cases hs : specCall df a [] with
        | error e' =>
          simp only [hs, SState.bind, Out.err.injEq] at h5
          simp only [SState.bind, h5]
        | ok v =>
          rw [hs] at h5
          cases v with
          | unc u => simp [SState.bind] at h5
          | plain x => cases x <;> simp [SState.bind] at h5
  obtain ⟨h6, h7⟩ := h1.snoc (.call f (X I) []) rfl
  rw [h4] at h6 h7
  refine ⟨pre.map (fun J => .call f (X J) []) ++ [.call f (X I) []], ?_, fun y a hy => ?_⟩
  · unfold Machine.callND vectorizedND
    simp only [C103_shape.2 hr]
    rw [mapRes'_ok _ X _ fun I hI => (hX I (mem_indices.1 hI)).1, hsplit]
    simp only [List.map_append, List.map_cons, List.map_map, Function.comp_def] at h3 ⊢
    rw [h3, Machine.runCalls]
    have e1 : (after (cs ++ pre.map fun J => .call f (X J) [])).step (.call f (X I) []) =
        (after (cs ++ pre.map (fun J => .call f (X J) []) ++ [.call f (X I) []]), .err e) :=
      Prod.ext (after_snoc' _ _).symm h6
    rw [e1]
    simp only [List.append_assoc]
  · obtain ⟨sv, k1, k2⟩ := hst.seen hy
    rw [← k2, ← List.append_assoc]
    exact h7.seenAs (by rw [List.append_assoc]; exact seval_append k1)

omit [ExactLin F] in
theorem cstValue_of_sees {cs : List (Cmd F)} {f : PyFn F} {args : List (Arg F)} {v : PyVal F}
    (h : sees (cs ++ [.lcst f args []]) (.nominal (next cs)) = .val v) : (after cs).cstValue f args = .ok v := by
  unfold sees at h
  rw [after_snoc'] at h
  simp only [Machine.step, next, Arg.eval, evalArgs] at h
  unfold Machine.cstValue
  cases ha : evalArgs (Arg.eval (after cs).env) args with
  | none => simp [ha, Machine.invalid] at h
  | some a =>
    simp only [ha] at h ⊢
    unfold wrapLocallyCst at h ⊢
    simp only [List.map_nil] at h ⊢
    cases hw : f (a.map Val.nominal) [] with
    | error e => simp [hw, Except.map, Machine.bind, Machine.invalid] at h
    | ok w =>
      cases w <;> simp [hw, Except.map, Machine.bind, Machine.invalid, Val.nominal] at h ⊢ <;> exact h

omit [ExactLin F] in
/-- **C103**: the locally constant functions of `unumpy` (`floor()`, `isnan()`...), with any number of arrays of any dimensions and of any
shapes which are compatible and not empty: each element is the result of `umath.f()` for the elements of the arrays at its place, if all
the results can be converted to the NumPy type of the first one. -/
theorem C103_locally_constant_partial (cs : List (Cmd F)) (cast : PyVal F → PyVal F → PyRes (PyVal F)) (f : PyFn F)
    (As : List (NDArray (Arg F))) (hA : ∀ A ∈ As, A.Valid) {r : List ℕ} (hr : IsBroadcast (As.map NDArray.shape) r)
    (hne : ∀ A ∈ As, 0 ∉ A.shape) (V : List ℕ → PyVal F)
    (hok : ∀ I args, InShape r I → List.Forall₂ (fun A x => ∃ J, Aligned A.shape I J ∧ A.get? J = some x) As args →
      sees (cs ++ [.lcst f args []]) (.nominal (next cs)) = .val (V I))
    (hcast : ∀ I, InShape r I → cast (V (r.map fun _ => 0)) (V I) = .ok (V I)) :
    ∃ x : NDArray (PyVal F), (after cs).vectorizedCst cast f As = .ok x ∧ x.shape = r ∧ x.Valid ∧
      ∀ I, InShape r I → x.get? I = some (V I) := by
  choose X hX using args_exist As hA hr
  have hpos : ∀ d ∈ r, 0 < d := by
    intro d hd
    obtain ⟨k, hk, e⟩ := List.mem_iff_getElem.1 (List.mem_reverse.2 hd)
    have hk' : dimEnd r k = d := by rw [dimEnd, List.getElem?_eq_getElem hk]; exact e
    rcases hr.dim k with e' | ⟨s, hs, e'⟩
    · omega
    · obtain ⟨A, hAm, rfl⟩ := List.mem_map.1 hs
      rw [hk'] at e'
      by_contra h0
      have h0 : d = 0 := by omega
      rw [h0, dimEnd] at e'
      cases hg : A.shape.reverse[k]? with
      | none => simp [hg] at e'
      | some z =>
        simp only [hg, Option.getD_some] at e'
        exact hne A hAm (List.mem_reverse.1 (e' ▸ List.mem_of_getElem? hg))
  have hz : InShape r (r.map fun _ => 0) := by
    clear hr hok hcast hX X
    induction r with
    | nil => exact .nil
    | cons d r ih => exact .cons (hpos d (by simp)) (ih fun e he => hpos e (by simp [he]))
  have hfirst : ∃ t, indices r = (r.map fun _ => 0) :: t := by
    have h0 : cOrder r (r.map fun _ => 0) = 0 := by
      clear hr hok hcast hX X hpos hz
      induction r with
      | nil => rfl
      | cons d r ih => simp only [List.map_cons, cOrder, ih, Nat.zero_mul]
    have := indices_get hz
    rw [h0] at this
    cases hi : indices r with
    | nil => simp [hi] at this
    | cons a t =>
      rw [hi, List.getElem?_cons_zero, Option.some.injEq] at this
      exact ⟨t, by rw [this]⟩
  have hempty : ¬ (As.any fun A => A.data.isEmpty) = true := by
    simp only [List.any_eq_true, not_exists, not_and, Bool.not_eq_true]
    intro A hAm
    have h1 := hA A hAm
    have h2 : A.shape.prod ≠ 0 := List.prod_ne_zero (hne A hAm)
    cases hd : A.data with
    | nil => rw [NDArray.Valid, hd] at h1; exact absurd h1.symm h2
    | cons => rfl
  have hv : mapRes' ((after cs).cstValue f) ((indices r).map X) = .ok ((indices r).map V) := by
    rw [show (indices r).map V = ((indices r).map X).map (fun a => (((after cs).cstValue f a).toOption).getD .notImpl) from ?_]
    · refine mapRes'_ok _ _ _ fun a ha => ?_
      obtain ⟨I, hI, rfl⟩ := List.mem_map.1 ha
      rw [cstValue_of_sees (hok I _ (mem_indices.1 hI) (hX I (mem_indices.1 hI)).2)]
      rfl
    · rw [List.map_map]
      refine List.map_congr_left fun I hI => ?_
      simp only [Function.comp, cstValue_of_sees (hok I _ (mem_indices.1 hI) (hX I (mem_indices.1 hI)).2)]
      rfl
  refine ⟨⟨r, (indices r).map V⟩, ?_, rfl, by simp [NDArray.Valid, indices_length], fun I hI => ?_⟩
  · unfold Machine.vectorizedCst
    rw [if_neg hempty]
    simp only [C103_shape.2 hr]
    rw [mapRes'_ok _ X _ fun I hI => (hX I (mem_indices.1 hI)).1]
    simp only [hv]
    obtain ⟨t, ht⟩ := hfirst
    have hc : mapRes' (cast (V (r.map fun _ => 0))) ((indices r).map V) = .ok ((indices r).map V) := by
      rw [mapRes'_ok _ id _ fun v hv => ?_]
      · simp
      · obtain ⟨I, hI, rfl⟩ := List.mem_map.1 hv
        exact hcast I (mem_indices.1 hI)
    rw [ht] at hc ⊢
    simp only [List.map_cons] at hc ⊢
    simp only [hc]
  · simp [NDArray.get?, indices_get hI]

theorem mapRes'_error {α β : Type} (f : α → PyRes β) (g : α → β) (pre post : List α) (a : α) (e : PyErr)
    (h : ∀ b ∈ pre, f b = .ok (g b)) (ha : f a = .error e) : mapRes' f (pre ++ a :: post) = .error e := by
  induction pre with
  | nil => simp only [List.nil_append, mapRes', ha]
  | cons b pre ih => simp only [List.cons_append, mapRes', h b (by simp), ih fun c hc => h c (by simp [hc])]

omit [ExactLin F] in
theorem cstValue_of_err {cs : List (Cmd F)} {f : PyFn F} {args : List (Arg F)} {e : PyErr}
    (h : sees cs (.lcst f args []) = .err e) : (after cs).cstValue f args = .error e := by
  unfold sees at h
  simp only [Machine.step, evalArgs] at h
  unfold Machine.cstValue
  cases ha : evalArgs (Arg.eval (after cs).env) args with
  | none => simp [ha, Machine.invalid] at h
  | some a =>
    simp only [ha] at h ⊢
    unfold wrapLocallyCst at h ⊢
    simp only [List.map_nil] at h ⊢
    cases hw : f (a.map Val.nominal) [] with
    | error e' => simpa [hw, Except.map, Machine.bind] using h
    | ok w => cases w <;> simp [hw, Except.map, Machine.bind] at h

omit [ExactLin F] in
/-- **C103**: idem for exceptions: when the function raises an exception for an element, and not for the previous ones, this
exception is raised. -/
theorem C103_locally_constant_exception (cs : List (Cmd F)) (cast : PyVal F → PyVal F → PyRes (PyVal F)) (f : PyFn F)
    (As : List (NDArray (Arg F))) (hA : ∀ A ∈ As, A.Valid) {r : List ℕ} (hr : IsBroadcast (As.map NDArray.shape) r)
    (hne : ∀ A ∈ As, 0 ∉ A.shape) (V : List ℕ → PyVal F) {I : List ℕ} (hI : InShape r I) (e : PyErr)
    (herr : ∀ args, List.Forall₂ (fun A x => ∃ J, Aligned A.shape I J ∧ A.get? J = some x) As args →
      sees cs (.lcst f args []) = .err e)
    (hok : ∀ J args, InShape r J → J < I → List.Forall₂ (fun A x => ∃ K, Aligned A.shape J K ∧ A.get? K = some x) As args →
      sees (cs ++ [.lcst f args []]) (.nominal (next cs)) = .val (V J)) :
    (after cs).vectorizedCst cast f As = .error e := by
  choose X hX using args_exist As hA hr
  obtain ⟨pre, post, hsplit⟩ := List.append_of_mem (mem_indices.2 hI)
  have hlt : ∀ J ∈ pre, InShape r J ∧ J < I := by
    intro J hJ
    refine ⟨mem_indices.1 (by rw [hsplit]; simp [hJ]), ?_⟩
    have := indices_pairwise r
    rw [hsplit, List.pairwise_append] at this
    exact this.2.2 J hJ I (by simp)
  have hempty : ¬ (As.any fun A => A.data.isEmpty) = true := by
    simp only [List.any_eq_true, not_exists, not_and, Bool.not_eq_true]
    intro A hAm
    have h1 := hA A hAm
    have h2 : A.shape.prod ≠ 0 := List.prod_ne_zero (hne A hAm)
    cases hd : A.data with
    | nil => rw [NDArray.Valid, hd] at h1; exact absurd h1.symm h2
    | cons => rfl
  have hv : mapRes' ((after cs).cstValue f) ((indices r).map X) = .error e := by
    rw [hsplit, List.map_append, List.map_cons]
    refine mapRes'_error _ (fun a => (((after cs).cstValue f a).toOption).getD .notImpl) _ _ _ e ?_
      (cstValue_of_err (herr _ (hX I hI).2))
    intro a ha
    obtain ⟨J, hJ, rfl⟩ := List.mem_map.1 ha
    obtain ⟨k1, k2⟩ := hlt J hJ
    rw [cstValue_of_sees (hok J _ k1 k2 (hX J k1).2)]
    rfl
  unfold Machine.vectorizedCst
  rw [if_neg hempty]
  simp only [C103_shape.2 hr]
  rw [mapRes'_ok _ X _ fun I hI => (hX I (mem_indices.1 hI)).1]
  simp only [hv]

omit [ExactLin F] in
/-- **C103** is false for locally constant functions of empty arrays: `unumpy.floor(array)` raises `ValueError`, when other functions
(`unumpy.sin()`...) return an empty array. -/
theorem C103_fails_empty (m : Machine F) (cast : PyVal F → PyVal F → PyRes (PyVal F)) (f : PyFn F) (call : List (Arg F) → Cmd F) (base : ℕ) :
    m.vectorizedCst cast f [⟨[0], []⟩] = .error .valueError ∧
    vectorizedND call base [⟨[0], []⟩] = .ok ([], ⟨[0], []⟩) := ⟨rfl, rfl⟩

omit [ExactLin F] in
/-- **C103** is false for locally constant functions when a result does not have the type of the first one: `unumpy.floor([1, 1e30])`
raises `OverflowError`, when `umath.floor()` can be called for both elements. -/
theorem C103_fails_type (m : Machine F) (cast : PyVal F → PyVal F → PyRes (PyVal F)) (f : PyFn F) (x y : Arg F) (v w : PyVal F)
    (hx : m.cstValue f [x] = .ok v) (hy : m.cstValue f [y] = .ok w) (hv : cast v v = .ok v) (hw : cast v w = .error .overflowError) :
    m.vectorizedCst cast f [⟨[2], [x, y]⟩] = .error .overflowError := by
  have hb : broadcastShapes [[2]] = .ok [2] := rfl
  have hi : indices [2] = [[0], [1]] := rfl
  have h0 : NDArray.pick (⟨[2], [x, y]⟩ : NDArray (Arg F)) [0] = .ok x := rfl
  have h1 : NDArray.pick (⟨[2], [x, y]⟩ : NDArray (Arg F)) [1] = .ok y := rfl
  simp [Machine.vectorizedCst, hb, hi, h0, h1, mapRes', hx, hy, hv, hw]

/-! ### Examples -/

/-- Shapes (2, 1) and (3), and scalars. -/
example : IsBroadcast [[2, 1], [3], []] [2, 3] := C103_shape.1 (by decide)

/-- Shapes (2, 2) and (3). -/
example : broadcastShapes [[2, 2], [3]] = .error .valueError ∧ dimEnd [2, 2] 0 = 2 ∧ dimEnd [3] 0 = 3 := by decide

/-- `uarray([[1], [2]], [0, 3, 4])`: the hypotheses of `C103_uarray`. -/
example :
    let noms : NDArray ZN := ⟨[2, 1], [.fin 1, .fin 2]⟩
    let stds : NDArray ZN := ⟨[3], [.fin 0, .fin 3, .fin 4]⟩
    noms.Valid ∧ stds.Valid ∧ IsBroadcast [noms.shape, stds.shape] [2, 3] ∧ (∀ s ∈ stds.data, specBadStd s = false) ∧
    InShape [2, 3] [1, 2] ∧ Aligned noms.shape [1, 2] [1, 0] ∧ Aligned stds.shape [1, 2] [2] :=
  ⟨rfl, rfl, C103_shape.1 (by decide), by decide +kernel, by simp [InShape], ⟨rfl, by decide⟩, ⟨rfl, by decide⟩⟩

/-- `nominal_values()` and `std_devs()` of `[[x + y], [7]]`. -/
example :
    let cs : List (Cmd ZN) := [.ufloat (.fin 2) (.fin 3) none, .ufloat (.fin 5) (.fin 4) none, .binop .add (.ref 0) (.ref 1)]
    let A : NDArray (Arg ZN) := ⟨[2, 1], [.ref 2, .const (.flt (.fin 7))]⟩
    A.Valid ∧ A.get? [0, 0] = some (.ref 2) ∧ sees cs (.stdDev (.ref 2)) = .val (.flt (.fin 5)) ∧
    (after cs).nominalValuesND A = .ok ⟨[2, 1], [.fin 7, .fin 7]⟩ ∧ ((after cs).stdDevsND A).2 = .ok ⟨[2, 1], [.fin 5, .fin 0]⟩ :=
  ⟨rfl, rfl, rfl, by decide +kernel, by decide +kernel⟩

/-- `uarray([1, 2], -1)`: the hypotheses of `C103_uarray_negative`. -/
example : uarrayND (F := ZN) 0 ⟨[2], [.fin 1, .fin 2]⟩ ⟨[], [.fin (-1)]⟩ = .error .negativeStdDev :=
  C103_uarray_negative (r := [2]) (I := [1]) (K := []) 0 rfl rfl (C103_shape.1 (by decide)) (by simp [InShape]) ⟨rfl, by decide⟩ rfl
    (by decide +kernel)

/-- `f([x, 4], y)`: the hypotheses of `C103_functions`, and each element. -/
example :
    let cs : List (Cmd ZN) := [.ufloat (.fin 3) (.fin 1) none, .ufloat (.fin 5) (.fin 1) none, .wrap fsumWrapDef]
    let A : NDArray (Arg ZN) := ⟨[2], [.ref 0, .const (.flt (.fin 4))]⟩
    let B : NDArray (Arg ZN) := ⟨[], [.ref 1]⟩
    A.Valid ∧ B.Valid ∧ IsBroadcast ([A, B].map NDArray.shape) [2] ∧
    sees cs (.call (opDefs (F := ZN)).length [.ref 0, .ref 1] []) = .done ∧
    sees cs (.call (opDefs (F := ZN)).length [.const (.flt (.fin 4)), .ref 1] []) = .done :=
  ⟨rfl, rfl, C103_shape.1 (by decide), rfl, rfl⟩

/-- The identity for numbers less than 4, and an exception for the others. -/
def exRaises : WrapDef ZN where
  f l _ := match l with
    | [.flt (.fin k)] => if k < 4 then .ok (.flt (.fin k)) else .error .valueError
    | _ => .error .typeError
  derivativesArgs := .infinite (fun _ => some (fun _ _ => .ok 1))
  derivativesKwargs := []
  argspec := some []

/-- A function that raises an exception for some arguments: `f([x, 4])` with an exception for the second element, as in
`C103_exception`. -/
example :
    let cs : List (Cmd ZN) := [.ufloat (.fin 3) (.fin 1) none, .wrap exRaises]
    let A : NDArray (Arg ZN) := ⟨[2], [.ref 0, .const (.flt (.fin 4))]⟩
    A.Valid ∧ IsBroadcast ([A].map NDArray.shape) [2] ∧ InShape [2] [1] ∧
    sees cs (.call (opDefs (F := ZN)).length [.const (.flt (.fin 4))] []) = .err .valueError ∧
    sees cs (.call (opDefs (F := ZN)).length [.ref 0] []) = .done ∧
    ((after cs).callND (opDefs (F := ZN)).length [A]).2 = .error .valueError :=
  ⟨rfl, C103_shape.1 (by decide), by simp [InShape], rfl, rfl, rfl⟩

/-- A function that returns its first argument. -/
def exFirst : PyFn ZN := fun l _ => match l with
  | v :: _ => .ok v
  | [] => .error .typeError

/-- A type with integers smaller than 100 only. -/
def exCast : PyVal ZN → PyVal ZN → PyRes (PyVal ZN)
  | _, .flt (.fin k) => if k < 100 then .ok (.flt (.fin k)) else .error .overflowError
  | _, v => .ok v

/-- The hypotheses of `C103_locally_constant_exception`: `f([x, g])` where `f(g)` raises an exception. -/
example :
    let cs : List (Cmd ZN) := [.ufloat (.fin 3) (.fin 1) none]
    let f : PyFn ZN := fun l _ => match l with
      | [.flt (.fin k)] => if k < 4 then .ok (.flt (.fin k)) else .error .valueError
      | _ => .error .typeError
    sees (cs ++ [.lcst f [.ref 0] []]) (.nominal (next cs)) = .val (.flt (.fin 3)) ∧
    sees cs (.lcst f [.const (.flt (.fin 5))] []) = .err .valueError ∧
    (after cs).vectorizedCst exCast f [⟨[2], [.ref 0, .const (.flt (.fin 5))]⟩] = .error .valueError := ⟨rfl, rfl, rfl⟩

/-- The hypotheses of `C103_locally_constant_partial` and those of `C103_fails_type`. -/
example :
    let cs : List (Cmd ZN) := [.ufloat (.fin 3) (.fin 1) none, .ufloat (.fin 5000) (.fin 1) none]
    sees (cs ++ [.lcst exFirst [.ref 0] []]) (.nominal (next cs)) = .val (.flt (.fin 3)) ∧
    exCast (.flt (.fin 3)) (.flt (.fin 3)) = .ok (.flt (.fin 3)) ∧
    (after cs).cstValue exFirst [.ref 0] = .ok (.flt (.fin 3)) ∧ (after cs).cstValue exFirst [.ref 1] = .ok (.flt (.fin 5000)) ∧
    exCast (.flt (.fin 3)) (.flt (.fin 5000)) = .error .overflowError ∧
    (after cs).vectorizedCst exCast exFirst [⟨[2], [.ref 0, .ref 1]⟩] = .error .overflowError := ⟨rfl, rfl, rfl, rfl, rfl, rfl⟩

end Unc
