import Verif.Lemmas.ReadTerms
import Verif.Lemmas.Shape3

/-
The difference of a number with uncertainty and a float that was converted to a number with uncertainty
(`to_affine_scalar`) is the difference with the float itself.
-/

namespace Unc

set_option autoImplicit false

section heap
variable {F : Type} [PyFloat F]

/-- Two heaps that have the same first objects, and one object with the same terms: same calculation. -/
theorem expandLoop_agree (n : Nat) (fuel : Nat) (h1 h2 : Heap F) (i1 i2 : NodeId) (ts : List (Item F)) (d : Derivs F)
    (hk : ∀ k, k < n → h1[k]? = h2[k]?) (hi1 : n ≤ i1) (hi2 : n ≤ i2) (e1 : h1[i1]? = some (.terms ts))
    (e2 : h2[i2]? = some (.terms ts)) (hb : ItemsBelow n ts)
    (hw : ∀ k tj, k < n → h1[k]? = some (.terms tj) → ItemsBelow n tj) :
    (expandLoop fuel h1 i1 d).2 = (expandLoop fuel h2 i2 d).2 ∧
    (expandLoop fuel h1 i1 d).1[i1]? = (expandLoop fuel h2 i2 d).1[i2]? := by
  induction fuel generalizing h1 h2 ts d with
  | zero => exact ⟨rfl, e1.trans e2.symm⟩
  | succ fuel ih =>
    have l1 := (List.getElem?_eq_some_iff.mp e1).1
    have l2 := (List.getElem?_eq_some_iff.mp e2).1
    cases ts with
    | nil =>
      simp only [expandLoop, expandStep, e1, e2]
      exact ⟨trivial, by rw [List.getElem?_set_self l1, List.getElem?_set_self l2]⟩
    | cons t ts =>
      have hb' : ItemsBelow n ts := fun t ht => hb t (by simp [ht])
      obtain ⟨c, j, rfl, hj⟩ := hb t (by simp)
      have keep : ∀ (ts' : List (Item F)) (ts'' : List (Item F)) k, k < n →
          (h1.set i1 (.terms ts'))[k]? = (h2.set i2 (.terms ts''))[k]? := fun ts' ts'' k hkn => by
        rw [List.getElem?_set_ne (by omega), List.getElem?_set_ne (by omega)]
        exact hk k hkn
      have hw' : ∀ (ts' : List (Item F)) k tj, k < n → (h1.set i1 (.terms ts'))[k]? = some (.terms tj) → ItemsBelow n tj :=
        fun ts' k tj hkn he => by
          rw [List.getElem?_set_ne (by omega)] at he
          exact hw k tj hkn he
      simp only [expandLoop, expandStep, e1, e2]
      have g1 : (h1.set i1 (.terms ts))[j]? = h1[j]? := List.getElem?_set_ne (by omega)
      have g2 : (h2.set i2 (.terms ts))[j]? = h1[j]? := (List.getElem?_set_ne (by omega)).trans (hk j hj).symm
      rw [g1, g2]
      cases hc : h1[j]? with
      | none => exact ⟨rfl, by simp [l1, l2]⟩
      | some lc =>
        cases lc with
        | dict dj =>
          exact ih _ _ ts _ (keep ts ts) (List.getElem?_set_self l1) (List.getElem?_set_self l2) hb' (hw' ts)
        | terms tj =>
          have hbj := hw j tj hj hc
          simp only [pushScaled_reverse c n tj ts hbj, List.set_set]
          exact ih _ _ _ _ (keep _ _) (List.getElem?_set_self l1) (List.getElem?_set_self l2)
            (itemsBelow_append (itemsBelow_scale le_rfl hbj) hb') (hw' _)

/-- A term with an empty dictionary changes nothing. -/
theorem readDerivs_empty_term {h : Heap F} (hw : HeapWF h) (a b : F) {l : NodeId} (hl : l < h.length) :
    (readDerivs (h ++ [.dict []] ++ [.terms [.pair a h.length, .pair b l]]) (h.length + 1)).2 =
      (readDerivs (h ++ [.terms [.pair b l]]) h.length).2 := by
  have e1 : (h ++ [LC.dict []] ++ [LC.terms [.pair a h.length, .pair b l]])[h.length + 1]? =
      some (.terms [.pair a h.length, .pair b l]) := by
    rw [List.getElem?_append_right (by simp)]
    simp
  have e2 : (h ++ [LC.terms [Item.pair b l]])[h.length]? = some (.terms [.pair b l]) := by simp
  have l1 := (List.getElem?_eq_some_iff.mp e1).1
  have hf : fuelFor (h ++ [LC.dict []] ++ [LC.terms [.pair a h.length, .pair b l]]) (h.length + 1) =
      fuelFor (h ++ [LC.terms [Item.pair b l]]) h.length + 1 := by
    have c1 : (costs (h ++ [LC.dict []] ++ [LC.terms [.pair a h.length, .pair b l]]))[h.length + 1]? =
        some (1 + 0 + (1 + ((costs h)[l]?).getD 0 + 0)) := by
      rw [costs_append, costs_append, List.getElem?_append_right (by simp [length_costs])]
      have k1 : (costs h ++ [nodeCost (costs h) (LC.dict ([] : Derivs F))])[h.length]? = some 0 := by
        rw [List.getElem?_append_right (by rw [length_costs])]
        simp [length_costs, nodeCost]
      have k2 : (costs h ++ [nodeCost (costs h) (LC.dict ([] : Derivs F))])[l]? = (costs h)[l]? :=
        List.getElem?_append_left (by rw [length_costs]; exact hl)
      simp only [nodeCost] at k1 k2
      simp [length_costs, nodeCost, itemsCost, k1, k2]
    have c2 : (costs (h ++ [LC.terms [Item.pair b l]]))[h.length]? = some (1 + ((costs h)[l]?).getD 0 + 0) := by
      rw [costs_append, List.getElem?_append_right (by rw [length_costs])]
      simp [length_costs, nodeCost, itemsCost]
    simp only [fuelFor, c1, c2, Option.getD_some]
    omega
  simp only [readDerivs, e1, e2, expand, hf]
  have g1 : (h ++ [LC.dict []] ++ [LC.terms [.pair a h.length, .pair b l]]).set (h.length + 1) (.terms [.pair b l]) =
      h ++ [LC.dict []] ++ [LC.terms [.pair b l]] := by
    rw [List.set_append_right _ _ (by simp)]
    simp
  have g2 : (h ++ [LC.dict []] ++ [LC.terms [Item.pair b l]])[h.length]? = some (.dict []) := by
    rw [List.getElem?_append_left (by simp)]
    simp
  have hs : expandLoop (fuelFor (h ++ [LC.terms [Item.pair b l]]) h.length + 1)
      (h ++ [LC.dict []] ++ [LC.terms [.pair a h.length, .pair b l]]) (h.length + 1) [] =
      expandLoop (fuelFor (h ++ [LC.terms [Item.pair b l]]) h.length) (h ++ [LC.dict []] ++ [LC.terms [Item.pair b l]])
        (h.length + 1) [] := by
    conv_lhs => rw [expandLoop]
    simp only [expandStep, e1, g1, g2, addScaled]
  rw [hs]
  obtain ⟨a1, a2⟩ := expandLoop_agree h.length (fuelFor (h ++ [LC.terms [Item.pair b l]]) h.length)
    (h ++ [LC.dict []] ++ [LC.terms [Item.pair b l]]) (h ++ [LC.terms [Item.pair b l]]) (h.length + 1) h.length [.pair b l] []
    (fun k hk => by rw [List.append_assoc, List.getElem?_append_left hk, List.getElem?_append_left hk]) (by omega) le_rfl
    (by rw [List.getElem?_append_right (by simp)]; simp) e2 (by intro t ht; simp only [List.mem_singleton] at ht; exact ⟨b, l, ht, hl⟩)
    (fun k tj hk he => by
      rw [List.append_assoc, List.getElem?_append_left hk] at he
      intro t ht
      obtain ⟨c, j, rfl, hj⟩ := hw k tj he t ht
      exact ⟨c, j, rfl, by omega⟩)
  revert a1 a2
  generalize expandLoop _ (h ++ [LC.dict []] ++ [LC.terms [Item.pair b l]]) _ _ = r1
  generalize expandLoop _ (h ++ [LC.terms [Item.pair b l]]) _ _ = r2
  obtain ⟨h1, r1⟩ := r1
  obtain ⟨h2, r2⟩ := r2
  rintro rfl a2
  cases r1 with
  | error e => rfl
  | ok _ =>
    simp only at a2 ⊢
    rw [a2]
    cases h2[h.length]? with
    | none => rfl
    | some lc => cases lc <;> rfl

end heap

section world
variable {F : Type} [PyMath F]

theorem stdDev_same {w w' : World F} {u u' : UF F} (hv : w.vars = w'.vars) (hu : u.var = none) (hu' : u'.var = none)
    (hd : (readDerivs w.nodes u.lin).2 = (readDerivs w'.nodes u'.lin).2) : (w.stdDev u).2 = (w'.stdDev u').2 := by
  simp only [World.stdDev, hu, hu', World.affStdDev, World.errorComponents, World.derivatives]
  revert hd
  rcases readDerivs w.nodes u.lin with ⟨h1, r1⟩
  rcases readDerivs w'.nodes u'.lin with ⟨h2, r2⟩
  rintro rfl
  cases r1 with
  | error e => rfl
  | ok d =>
    simp only [hv]
    cases errorLoop w'.vars d with
    | error e => rfl
    | ok c =>
      simp only
      cases sumSquares (c.map Prod.snd) 0 <;> rfl

/-- The calls made by `x - c` and by a comparison of `x` and `c`. -/
theorem World.sub_float {w : World F} (h : Shape w) (ho : HasOps w) {x : UF F} (hx : x.Valid w) (c : F) :
    ∃ w1 w2 u1 u2, w.call BinOp.sub.id [.unc x, .plain (.flt c)] [] = (w1, .ok (.unc u1)) ∧
      (w.alloc (.dict [])).1.call BinOp.sub.id [.unc x, .unc { nom := c, lin := w.nodes.length, var := none }] [] =
        (w2, .ok (.unc u2)) ∧ u1.nom = u2.nom ∧ (w1.stdDev u1).2 = (w2.stdDev u2).2 := by
  obtain ⟨wf, hg, hwf⟩ := Option.map_eq_some_iff.mp (ho.binop .sub)
  obtain ⟨wf1, k1, -, -⟩ := callTerms_callSpec wf (h.wraps _ wf hg) [.unc x, .plain (.flt c)] []
  obtain ⟨wf2, k2, -, -⟩ := callTerms_callSpec wf (h.wraps _ wf hg)
    [.unc x, .unc { nom := c, lin := w.nodes.length, var := none }] []
  have s1 : callSpec wf.df [.unc x, .plain (.flt c)] [] = .ok (.inr (x.nom - c, [.pair 1 x.lin])) := by rw [hwf]; rfl
  have s2 : callSpec wf.df [.unc x, .unc { nom := c, lin := w.nodes.length, var := none }] [] =
      .ok (.inr (x.nom - c, [.pair (-1) w.nodes.length, .pair 1 x.lin])) := by rw [hwf]; rfl
  rw [s1] at k1
  rw [s2] at k2
  refine ⟨⟨w.nodes ++ [.terms [.pair 1 x.lin]], w.vars, w.wraps.set BinOp.sub.id wf1⟩,
    ⟨w.nodes ++ [.dict []] ++ [.terms [.pair (-1) w.nodes.length, .pair 1 x.lin]], w.vars, w.wraps.set BinOp.sub.id wf2⟩,
    ⟨x.nom - c, w.nodes.length, none⟩, ⟨x.nom - c, w.nodes.length + 1, none⟩,
    by simp only [World.call, hg, k1, World.alloc], by simp [World.call, World.alloc, hg, k2], rfl, ?_⟩
  refine stdDev_same rfl rfl rfl ?_
  have := readDerivs_empty_term h.heap (-1 : F) 1 hx.1
  simpa using this.symm

end world

end Unc
