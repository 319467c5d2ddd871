import Verif.Lemmas.World

/-
Remaining operations: variables, covariance matrices, comparisons, operators.
-/

namespace Unc

set_option linter.unusedSectionVars false
set_option autoImplicit false

variable {F : Type} [PyOps F]

/-! ### Variables -/

/-- Evolution of the state that may also create or change variables. -/
structure Evolves' (w : World F) (g : NodeId → Lin F) (w' : World F) (g' : NodeId → Lin F) :
    Prop where
  inv : Inv w' g'
  len : w.nodes.length ≤ w'.nodes.length
  agree : ∀ i, i < w.nodes.length → g' i = g i
  fns : ∃ l, w'.wraps.map Wrapped.df = w.wraps.map Wrapped.df ++ l
  vars : ∀ (v : VarId) (c : VarCell F), w.vars[v]? = some c →
    ∃ c', w'.vars[v]? = some c' ∧ c'.lin = c.lin ∧ c'.nom = c.nom

theorem Evolves.weaken {w w' : World F} {g g' : NodeId → Lin F} (h : Evolves w g w' g') :
    Evolves' w g w' g' :=
  ⟨h.inv, h.len, h.agree, ⟨[], by simp [h.fns]⟩, fun v c hc => ⟨c, by rw [h.vars]; exact hc, rfl, rfl⟩⟩

theorem Evolves'.trans {w w' w'' : World F} {g g' g'' : NodeId → Lin F}
    (h : Evolves' w g w' g') (h' : Evolves' w' g' w'' g'') : Evolves' w g w'' g'' := by
  obtain ⟨l, hl⟩ := h.fns
  obtain ⟨l', hl'⟩ := h'.fns
  refine ⟨h'.inv, h.len.trans h'.len,
   fun i hi => (h'.agree i (Nat.lt_of_lt_of_le hi h.len)).trans (h.agree i hi),
   ⟨l ++ l', by rw [hl', hl, List.append_assoc]⟩, ?_⟩
  intro v c hc
  obtain ⟨c1, a1, a2, a3⟩ := h.vars v c hc
  obtain ⟨c2, b1, b2, b3⟩ := h'.vars v c1 a1
  exact ⟨c2, b1, b2.trans a2, b3.trans a3⟩

theorem UF.OK.evolves' {w w' : World F} {g g' : NodeId → Lin F} (he : Evolves' w g w' g')
    {u : UF F} (h : u.OK w) : u.OK w' := by
  refine ⟨Nat.lt_of_lt_of_le h.1 he.len, fun v hv => ?_⟩
  obtain ⟨c, h1, h2, h3⟩ := h.2 v hv
  obtain ⟨c', a1, a2, a3⟩ := he.vars v c h1
  exact ⟨c', a1, a2.trans h2, a3.trans h3⟩

theorem Val.OK.evolves' {w w' : World F} {g g' : NodeId → Lin F} (he : Evolves' w g w' g')
    {v : Val F} (h : v.OK w) : v.OK w' := by
  cases v with
  | plain _ => trivial
  | unc u => exact UF.OK.evolves' he h

theorem UF.abs_evolves' {w w' : World F} {g g' : NodeId → Lin F} (he : Evolves' w g w' g')
    {u : UF F} (h : u.OK w) : u.abs g' = u.abs g := by
  simp only [UF.abs]; rw [he.agree _ h.1]

theorem Val.abs_evolves' {w w' : World F} {g g' : NodeId → Lin F} (he : Evolves' w g w' g')
    {v : Val F} (h : v.OK w) : v.abs g' = v.abs g := by
  cases v with
  | plain _ => rfl
  | unc u => simp only [Val.abs]; rw [UF.abs_evolves' he h]

theorem World.ufloat_spec {w : World F} {g : NodeId → Lin F} (h : Inv w g) (n s : F)
    (tag : Option String) :
    ∃ w' g' r, w.ufloat n s tag = (w', r) ∧ Evolves' w g w' g' ∧
      w'.wraps = w.wraps ∧
      if specBadStd s then w' = w ∧ g' = g ∧ r = .error .negativeStdDev
      else w'.svars = w.svars ++ [{ nom := n, std := s, tag := tag }] ∧
        ∃ u, r = .ok u ∧ u.OK w' ∧
          u.abs g' = { nom := n, grad := Lin.single w.vars.length, var := some w.vars.length } := by
  unfold World.ufloat
  cases hb : specBadStd s with
  | true =>
    refine ⟨w, g, .error .negativeStdDev, ?_, (Evolves.refl h).weaken, rfl, ?_⟩
    · rw [if_pos (by simpa [specBadStd] using hb)]
    · simp
  | false =>
    have hb' : (PyFloat.ltb s 0 && !PyFloat.isInf s) = false := hb
    simp only [hb', Bool.false_eq_true, if_false, World.alloc]
    refine ⟨_, extend g w.nodes.length (Lin.single w.vars.length), _, rfl, ?_, rfl, ?_, _, rfl, ?_,
      ?_⟩
    · have hcell : CellOK (extend g w.nodes.length (Lin.single w.vars.length)) w.nodes.length
          (LC.dict [(w.vars.length, (1 : F))]) := by
        refine ⟨by simp [KeysNodup], ?_⟩
        rw [extend_self]
        funext v
        simp only [Lin.ofDict, lookup_cons, Lin.single]
        by_cases hv : v = w.vars.length <;> simp [hv]
      refine ⟨⟨denotes_alloc h.den _ _ hcell, ?_, ?_, ?_, ?_, h.wraps, h.ops⟩, by simp,
        fun i hi => extend_lt hi, ⟨[], by simp⟩, ?_⟩
      · intro i hi v x hx
        simp only [List.length_append, List.length_singleton] at hi ⊢
        by_cases hlt : i < w.nodes.length
        · rw [extend_lt hlt] at hx
          have := h.keys i hlt v x hx
          omega
        · have : i = w.nodes.length := by omega
          subst this
          rw [extend_self] at hx
          simp only [Lin.single] at hx
          split at hx
          · omega
          · cases hx
      · intro v cell hv
        simp only at hv
        by_cases hlt : v < w.vars.length
        · rw [List.getElem?_append_left hlt] at hv
          obtain ⟨a, b⟩ := h.vars v cell hv
          refine ⟨by simp; omega, by rw [extend_lt a]; exact b⟩
        · have hlen := (List.getElem?_eq_some_iff.mp hv).1
          have : v = w.vars.length := by simp at hlen; omega
          subst this
          simp at hv
          subst hv
          exact ⟨by simp, extend_self⟩
      · intro v cell hv
        simp only at hv
        rcases List.mem_append.mp (List.mem_of_getElem? hv) with hm | hm
        · obtain ⟨k, hk⟩ := List.getElem?_of_mem hm
          obtain ⟨d, hd⟩ := h.vdict k cell hk
          exact ⟨d, by simp only []; rw [List.getElem?_append_left (h.vars k cell hk).1]; exact hd⟩
        · simp at hm; subst hm; exact ⟨_, by simp; rfl⟩
      · intro v cell hv
        simp only at hv
        rcases List.mem_append.mp (List.mem_of_getElem? hv) with hm | hm
        · obtain ⟨k, hk⟩ := List.getElem?_of_mem hm
          exact h.std k cell hk
        · simp at hm; subst hm; exact hb
      · intro v c hc
        have hlt : v < w.vars.length := by rw [List.getElem?_eq_some_iff] at hc; exact hc.1
        exact ⟨c, by rw [List.getElem?_append_left hlt]; exact hc, rfl, rfl⟩
    · simp [World.svars, VarCell.abs]
    · refine ⟨by simp, ?_⟩
      intro v hv
      cases hv
      exact ⟨_, by simp; rfl, rfl, rfl⟩
    · simp [UF.abs, extend_self]

theorem World.setStd_spec {w : World F} {g : NodeId → Lin F} (h : Inv w g) (v : VarId)
    (hv : v < w.vars.length) (s : F) :
    ∃ w' r, w.setStd v s = (w', r) ∧ Evolves' w g w' g ∧ w'.wraps = w.wraps ∧
      if specBadStd s then w' = w ∧ r = .error .negativeStdDev
      else w'.svars = w.svars.modify v (fun c => { c with std := s }) ∧ r = .ok () := by
  have hg : w.vars[v]? = some w.vars[v] := List.getElem?_eq_getElem hv
  unfold World.setStd
  simp only [hg]
  cases hb : specBadStd s with
  | true =>
    refine ⟨w, .error .negativeStdDev, ?_, (Evolves.refl h).weaken, rfl, by simp⟩
    rw [if_pos (by simpa [specBadStd] using hb)]
  | false =>
    have hb' : (PyFloat.ltb s 0 && !PyFloat.isInf s) = false := hb
    simp only [hb', Bool.false_eq_true, if_false]
    refine ⟨_, _, rfl, ⟨⟨h.den, ?_, ?_, ?_, ?_, h.wraps, h.ops⟩, Nat.le_refl _, fun _ _ => rfl,
      ⟨[], by simp⟩, ?_⟩, rfl, ?_, rfl⟩
    · intro i hi u x hx
      simpa using h.keys i hi u x hx
    · intro u cell hu
      by_cases huv : v = u
      · subst huv
        simp only [List.getElem?_set_self hv] at hu
        cases hu
        exact h.vars v w.vars[v] hg
      · simp only [List.getElem?_set_ne huv] at hu
        exact h.vars u cell hu
    · intro u cell hu
      by_cases huv : v = u
      · subst huv
        simp only [List.getElem?_set_self hv] at hu
        cases hu
        exact h.vdict v w.vars[v] hg
      · simp only [List.getElem?_set_ne huv] at hu
        exact h.vdict u cell hu
    · intro u cell hu
      by_cases huv : v = u
      · subst huv
        simp only [List.getElem?_set_self hv] at hu
        cases hu
        exact hb
      · simp only [List.getElem?_set_ne huv] at hu
        exact h.std u cell hu
    · intro u c hc
      by_cases huv : v = u
      · subst huv
        rw [hg] at hc
        cases hc
        exact ⟨_, List.getElem?_set_self hv, rfl, rfl⟩
      · exact ⟨c, by rw [List.getElem?_set_ne huv]; exact hc, rfl, rfl⟩
    · apply List.ext_getElem?
      intro k
      simp only [World.svars, List.getElem?_map, List.getElem?_modify]
      by_cases hk : v = k
      · subst hk
        rw [List.getElem?_set_self hv, hg]
        simp [VarCell.abs]
      · rw [List.getElem?_set_ne hk]
        simp [hk]

theorem World.wrap_spec {w : World F} {g : NodeId → Lin F} (h : Inv w g) (df : WrapDef F) :
    Evolves' w g (w.wrap df).1 g ∧ (w.wrap df).2 = w.wraps.length ∧
      (w.wrap df).1.wraps.map Wrapped.df = w.wraps.map Wrapped.df ++ [df] ∧
      (w.wrap df).1.vars = w.vars := by
  refine ⟨⟨⟨h.den, h.keys, h.vars, h.vdict, h.std, ?_, ?_⟩, Nat.le_refl _, fun _ _ => rfl, ⟨[df], ?_⟩,
    fun v c hc => ⟨c, hc, rfl, rfl⟩⟩, rfl, ?_, rfl⟩
  · intro fid wf hf
    simp only [World.wrap] at hf
    by_cases hlt : fid < w.wraps.length
    · rw [List.getElem?_append_left hlt] at hf
      exact h.wraps fid wf hf
    · have hlen : fid < (w.wraps ++ [mkWrapped df]).length := by
        rw [List.getElem?_eq_some_iff] at hf; exact hf.1
      have : fid = w.wraps.length := by simp at hlen; omega
      subst this
      simp at hf
      subst hf
      exact mkWrapped_ok df
  · intro i hi
    have h0 := h.ops i hi
    have hlt : i < w.wraps.length := by
      by_contra hc
      rw [List.getElem?_eq_none (by omega)] at h0
      rw [List.getElem?_eq_getElem hi] at h0
      cases h0
    simp only [World.wrap]
    rw [List.getElem?_append_left hlt]
    exact h0
  · simp [World.wrap, mkWrapped_df]
  · simp [World.wrap, mkWrapped_df]

theorem Inv.init : Inv (World.init : World F) (fun _ => Lin.zero) := by
  refine ⟨?_, ?_, ?_, ?_, ?_, ?_, ?_⟩
  · intro i lc hi; simp [World.init] at hi
  · intro i hi; simp [World.init] at hi
  · intro v c hc; simp [World.init] at hc
  · intro v c hc; simp [World.init] at hc
  · intro v c hc; simp [World.init] at hc
  · intro fid wf hf
    simp only [World.init, List.getElem?_map, Option.map_eq_some_iff] at hf
    obtain ⟨df, -, rfl⟩ := hf
    exact mkWrapped_ok df
  · intro i hi
    simp only [World.init, List.getElem?_map, Option.map_map]
    cases (opDefs (F := F))[i]? with
    | none => rfl
    | some df => simp [mkWrapped_df]

section exact
variable [ExactLin F]

/-! ### Standard score -/

theorem World.stdScore_spec {w : World F} {g : NodeId → Lin F} (h : Inv w g) {u : UF F}
    (hu : u.OK w) (value : F) :
    ∃ w', Evolves w g w' g ∧ w.stdScore u value = (w',
      match specStdDev w.svars (u.abs g) with
      | .error .zeroDivisionError => .error .valueError
      | .error e => .error e
      | .ok s =>
        match PyFloat.truediv (value - u.nom) s with
        | .error .zeroDivisionError => .error .valueError
        | .error e => .error e
        | .ok r => .ok r) := by
  obtain ⟨w', h1, h2⟩ := World.stdDev_spec h hu
  refine ⟨w', h2, ?_⟩
  simp only [World.stdScore, h1]
  cases specStdDev w.svars (u.abs g) with
  | error e => cases e <;> rfl
  | ok s =>
    simp only []
    cases PyFloat.truediv (value - u.nom) s with
    | error e => cases e <;> rfl
    | ok r => rfl

/-! ### Covariance matrices -/

theorem covElem_spec (vars : List (VarCell F)) (d2 : Derivs F) (d1 : Derivs F) (acc : F)
    (hk : ∀ v ∈ d1.map Prod.fst, v < vars.length) :
    covElem vars d2 d1 acc = .ok (acc + sumList (d1.map (fun p =>
      match d2.lookup p.1, vars[p.1]? with
      | some b, some cell => p.2 * b * (cell.std * cell.std)
      | _, _ => 0))) := by
  induction d1 generalizing acc with
  | nil => simp [covElem, sumList, add_zero']
  | cons p d1 ih =>
    obtain ⟨v, a⟩ := p
    have hv : v < vars.length := hk v (by simp)
    have hk' : ∀ u ∈ d1.map Prod.fst, u < vars.length := fun u hu => hk u (by
      simp only [List.map_cons, List.mem_cons]; exact Or.inr hu)
    have hg : vars[v]? = some vars[v] := List.getElem?_eq_getElem hv
    simp only [covElem, List.map_cons, sumList]
    cases hl : d2.lookup v with
    | none => simp only [ih _ hk', ExactLin.zero_add]
    | some b => simp only [hg, ExactLin.sq_eq, ih _ hk', ExactLin.add_assoc]

theorem specCov_comm (vars : List (SVar F)) (g1 g2 : Lin F) :
    specCov vars g1 g2 = specCov vars g2 g1 := by
  apply sumVars_congr
  intro v _
  cases g1 v <;> cases g2 v <;> cases vars[v]? <;> simp [ExactLin.mul_comm]

theorem World.covRow_spec {w : World F} {g : NodeId → Lin F} (h : Inv w g) {u : UF F}
    (hu : u.OK w) (d1 : Derivs F) (hn : KeysNodup d1) (hd1 : Lin.ofDict d1 = g u.lin)
    (us : List (UF F)) (hus : ∀ x ∈ us, x.OK w) :
    ∃ w', Evolves w g w' g ∧ World.covRow d1 us w =
      (w', .ok (us.map (fun x => specCov w.svars (g u.lin) (g x.lin)))) := by
  induction us generalizing w with
  | nil => exact ⟨w, Evolves.refl h, rfl⟩
  | cons x us ih =>
    obtain ⟨w1, d2, a1, a2, a3, a4⟩ := World.derivatives_spec h (hus x (by simp))
    have hk := keys_lt h hu hd1
    have hce := covElem_spec w1.vars d2 d1 0 (by rw [a2.vars]; exact hk)
    obtain ⟨w2, b1, b2⟩ := ih a2.inv (UF.OK.evolves a2 hu)
      (fun y hy => UF.OK.evolves a2 (hus y (by simp [hy])))
    refine ⟨w2, a2.trans b1, ?_⟩
    simp only [World.covRow, a1, hce, b2, List.map_cons, svars_evolves a2, ExactLin.zero_add]
    congr 3
    have := sum_dict (fun v a => match d2.lookup v, w.vars[v]? with
      | some b, some cell => a * b * (cell.std * cell.std)
      | _, _ => 0) d1 w.vars.length hn hk
    rw [a2.vars, this]
    simp only [specCov, World.svars, List.length_map]
    apply sumVars_congr
    intro v hv
    have hg : w.vars[v]? = some w.vars[v] := List.getElem?_eq_getElem hv
    simp only [← hd1, ← a4, Lin.ofDict, List.getElem?_map, hg]
    cases d1.lookup v <;> cases d2.lookup v <;> simp [VarCell.abs]

/-- Lower triangle of a symmetric matrix. -/
def lowerRows {α β : Type} (c : α → α → β) (done : List α) : List α → List (List β)
  | [] => []
  | u :: rest => (done ++ [u]).map (c u) :: lowerRows c (done ++ [u]) rest

theorem World.covRows_spec {w : World F} {g : NodeId → Lin F} (h : Inv w g) (done us : List (UF F))
    (hd : ∀ x ∈ done, x.OK w) (hus : ∀ x ∈ us, x.OK w) :
    ∃ w', Evolves w g w' g ∧ World.covRows done us w =
      (w', .ok (lowerRows (fun x y => specCov w.svars (g x.lin) (g y.lin)) done us)) := by
  induction us generalizing w done with
  | nil => exact ⟨w, Evolves.refl h, rfl⟩
  | cons x us ih =>
    have hx := hus x (by simp)
    obtain ⟨w1, d1, a1, a2, a3, a4⟩ := World.derivatives_spec h hx
    have hd' : ∀ y ∈ done ++ [x], y.OK w1 := by
      intro y hy
      rcases List.mem_append.mp hy with hy | hy
      · exact UF.OK.evolves a2 (hd y hy)
      · simp at hy; subst hy; exact UF.OK.evolves a2 hx
    obtain ⟨w2, b1, b2⟩ := World.covRow_spec a2.inv (UF.OK.evolves a2 hx) d1 a3 a4 (done ++ [x]) hd'
    obtain ⟨w3, c1, c2⟩ := ih b1.inv (done ++ [x]) (fun y hy => UF.OK.evolves b1 (hd' y hy))
      (fun y hy => UF.OK.evolves (a2.trans b1) (hus y (by simp [hy])))
    refine ⟨w3, (a2.trans b1).trans c1, ?_⟩
    simp only [World.covRows, a1, b2, c2, lowerRows, svars_evolves a2, svars_evolves b1]

theorem column_lowerRows {α β : Type} (c : α → α → β) (done : List α) (u : α) (us : List α)
    (k : Nat) (hk : done[k]? = some u) :
    column k (lowerRows c done us) = .ok (us.map (fun x => c x u)) := by
  induction us generalizing done with
  | nil => rfl
  | cons x us ih =>
    have hlt : k < done.length := by rw [List.getElem?_eq_some_iff] at hk; exact hk.1
    have hk' : (done ++ [x])[k]? = some u := by
      rw [List.getElem?_append_left hlt]; exact hk
    have hk2 : ((done ++ [x]).map (c x))[k]? = some (c x u) := by
      rw [List.getElem?_map, hk']; rfl
    simp only [lowerRows, column, hk2, ih (done ++ [x]) hk', List.map_cons]

theorem symmetrize_lowerRows {α β : Type} (c : α → α → β) (hc : ∀ x y, c x y = c y x)
    (done us : List α) :
    symmetrize done.length (lowerRows c done us) =
      .ok (us.map (fun x => (done ++ us).map (c x))) := by
  induction us generalizing done with
  | nil => rfl
  | cons x us ih =>
    have h1 := column_lowerRows c (done ++ [x]) x us done.length (by simp)
    have h2 := ih (done ++ [x])
    simp only [List.length_append, List.length_singleton] at h2
    simp only [lowerRows, symmetrize, h1, h2]
    congr 1
    simp only [List.map_cons, List.map_append, List.append_assoc, List.map_nil,
      List.nil_append, List.cons_append]
    congr 3
    congr 1
    funext y
    exact hc y x

theorem World.covarianceMatrix_spec {w : World F} {g : NodeId → Lin F} (h : Inv w g)
    (us : List (UF F)) (hus : ∀ x ∈ us, x.OK w) :
    ∃ w', Evolves w g w' g ∧ w.covarianceMatrix us = (w', .ok (us.map (fun x => us.map (fun y =>
      specCov w.svars (g x.lin) (g y.lin))))) := by
  obtain ⟨w1, a1, a2⟩ := World.covRows_spec h [] us (by simp) hus
  refine ⟨w1, a1, ?_⟩
  simp only [World.covarianceMatrix, a2]
  have := symmetrize_lowerRows (fun x y : UF F => specCov w.svars (g x.lin) (g y.lin))
    (fun x y => specCov_comm _ _ _) [] us
  simp only [List.length_nil, List.nil_append] at this
  rw [this]

/-! ### Comparisons -/

theorem Inv.op_wrap {w : World F} {g : NodeId → Lin F} (h : Inv w g) (i : Nat) (df : WrapDef F)
    (hi : (opDefs (F := F))[i]? = some df) : ∃ wf, w.wraps[i]? = some wf ∧ wf.df = df := by
  have hlt : i < (opDefs (F := F)).length := by
    rw [List.getElem?_eq_some_iff] at hi; exact hi.1
  have := h.ops i hlt
  rw [hi] at this
  simpa [Option.map_eq_some_iff] using this

theorem opDefs_sub : (opDefs (F := F))[BinOp.sub.id]? = some (BinOp.wrapDef .sub) := by
  simp [opDefs, BinOp.id]

theorem specCall_sub (x y : SQ F) :
    specCall (BinOp.wrapDef .sub) [.unc x, .unc y] [] = .ok (.unc
      { nom := x.nom - y.nom, grad := Lin.comb [(1, x.grad), (-1, y.grad)], var := none }) := by
  rfl

theorem World.eqAff_spec {w : World F} {g : NodeId → Lin F} (h : Inv w g) {x y : UF F}
    (hx : x.OK w) (hy : y.OK w) :
    ∃ w' g', Evolves w g w' g' ∧
      w.eqAff BinOp.sub.id x y = (w', specEq w.svars (x.abs g) (y.abs g)) := by
  obtain ⟨wf, hwf, hdf⟩ := h.op_wrap _ _ opDefs_sub
  obtain ⟨w1, g1, r, a1, a2, a3, a4⟩ := World.call_spec h _ wf hwf [.unc x, .unc y] []
    (by intro a ha; rcases List.mem_cons.mp ha with rfl | ha
        · exact hx
        · simp at ha; subst ha; exact hy) (by simp)
  rw [hdf] at a3
  simp only [List.map_cons, List.map_nil, Val.abs_unc, specCall_sub] at a3
  cases r with
  | error e => simp [Except.map] at a3
  | ok v =>
    cases v with
    | plain v => simp [Except.map, Val.abs] at a3
    | unc u =>
      simp only [Except.map, Val.abs, Except.ok.injEq, SVal.unc.injEq] at a3
      have hu : u.OK w1 := a4 _ rfl
      have hnom : u.nom = (x.abs g).nom - (y.abs g).nom := congrArg SQ.nom a3
      have hvar : u.var = none := congrArg SQ.var a3
      simp only [World.eqAff, a1, specEq, hnom]
      by_cases ht : PyFloat.truthy ((x.abs g).nom - (y.abs g).nom) = true
      · exact ⟨w1, g1, a2, by simp only [ht, if_true]⟩
      · obtain ⟨w2, b1, b2⟩ := World.stdDev_spec a2.inv hu
        rw [a3] at b1
        refine ⟨w2, g1, a2.trans b2, ?_⟩
        simp only [ht, b1, specStdDev, svars_evolves a2]
        simp only [Bool.false_eq_true, if_false]
        cases specStd w.svars (Lin.comb [(1, (x.abs g).grad), (-1, (y.abs g).grad)]) <;> rfl

theorem World.cmpAff_spec {w : World F} {g : NodeId → Lin F} (h : Inv w g) (op : CmpOp)
    {x y : UF F} (hx : x.OK w) (hy : y.OK w) :
    ∃ w' g', Evolves w g w' g' ∧
      w.cmpAff BinOp.sub.id op x y = (w', specCmp w.svars op (x.abs g) (y.abs g)) := by
  obtain ⟨w1, g1, a1, a2⟩ := World.eqAff_spec h hx hy
  cases op with
  | eq => exact ⟨w1, g1, a1, a2⟩
  | ne =>
    refine ⟨w1, g1, a1, ?_⟩
    simp only [World.cmpAff, World.neAff, a2, specCmp]
    cases specEq w.svars (x.abs g) (y.abs g) <;> rfl
  | gt => exact ⟨w, g, Evolves.refl h, rfl⟩
  | lt => exact ⟨w, g, Evolves.refl h, rfl⟩
  | ge =>
    by_cases hlt : PyFloat.ltb y.nom x.nom = true
    · exact ⟨w, g, Evolves.refl h, by
        simp [World.cmpAff, World.geAff, World.gtAff, specCmp, hlt, UF.abs]⟩
    · refine ⟨w1, g1, a1, ?_⟩
      simp only [World.cmpAff, World.geAff, World.gtAff, hlt, a2]
      simp [specCmp, UF.abs, hlt]
  | le =>
    by_cases hlt : PyFloat.ltb x.nom y.nom = true
    · exact ⟨w, g, Evolves.refl h, by
        simp [World.cmpAff, World.leAff, World.ltAff, specCmp, hlt, UF.abs]⟩
    · refine ⟨w1, g1, a1, ?_⟩
      simp only [World.cmpAff, World.leAff, World.ltAff, hlt, a2]
      simp [specCmp, UF.abs, hlt]

theorem World.cmp_spec {w : World F} {g : NodeId → Lin F} (h : Inv w g) (op : CmpOp)
    {x : UF F} {y : Val F} (hx : x.OK w) (hy : y.OK w) :
    ∃ w' g', Evolves w g w' g' ∧
      w.cmp BinOp.sub.id op x y = (w', specCmpVal w.svars op (x.abs g) (y.abs g)) := by
  cases y with
  | unc y =>
    obtain ⟨w1, g1, a1, a2⟩ := World.cmpAff_spec h op hx (y := y) hy
    refine ⟨w1, g1, a1, ?_⟩
    simp only [World.cmp, World.toAffine, a2, specCmpVal, Val.abs]
    cases specCmp w.svars op (x.abs g) (y.abs g) <;> rfl
  | plain v =>
    cases v with
    | flt z =>
      have hal := h.alloc (.dict []) Lin.zero
        ⟨by simp [KeysNodup], by rw [extend_self]; rfl⟩ (by intro v x hx; cases hx)
      obtain ⟨w1, g1, a1, a2⟩ := World.cmpAff_spec hal.inv op (UF.OK.evolves hal hx)
        (y := { nom := z, lin := w.nodes.length, var := none })
        ⟨by simp [World.alloc], by intro v hv; cases hv⟩
      refine ⟨w1, g1, hal.trans a1, ?_⟩
      have e : (UF.abs (extend g w.nodes.length Lin.zero)
          ({ nom := z, lin := w.nodes.length, var := none } : UF F)) = specExact z := by
        simp [UF.abs, specExact, extend_self]
      rw [UF.abs_evolves hal hx, e, svars_evolves hal] at a2
      have e2 : (w.alloc (LC.dict [])).2 = w.nodes.length := rfl
      simp only [World.cmp, World.toAffine, specCmpVal, Val.abs, e2, a2]
      cases specCmp w.svars op (x.abs g) (specExact z) <;> rfl
    | cplx => exact ⟨w, g, Evolves.refl h, rfl⟩
    | other _ => exact ⟨w, g, Evolves.refl h, rfl⟩
    | notImpl => exact ⟨w, g, Evolves.refl h, rfl⟩

theorem World.toBool_spec {w : World F} {g : NodeId → Lin F} (h : Inv w g) {x : UF F}
    (hx : x.OK w) :
    ∃ w' g', Evolves w g w' g' ∧
      w.toBool BinOp.sub.id x = (w', specCmp w.svars .ne (x.abs g) (specExact 0)) := by
  obtain ⟨w1, g1, a1, a2⟩ := World.cmp_spec h .ne hx (y := .plain (.flt 0)) trivial
  refine ⟨w1, g1, a1, ?_⟩
  simp only [World.toBool, a2, specCmpVal, Val.abs]
  cases specCmp w.svars .ne (x.abs g) (specExact 0) <;> rfl

/-! ### Operators -/

theorem opDefs_binop (op : BinOp) : (opDefs (F := F))[op.id]? = some op.wrapDef := by
  cases op <;> rfl

theorem opDefs_rbinop (op : BinOp) : (opDefs (F := F))[op.rid]? = some op.rwrapDef := by
  cases op <;> rfl

theorem opDefs_unop (op : UnOp) : (opDefs (F := F))[op.id]? = some op.wrapDef := by
  cases op <;> rfl

theorem World.unop_spec {w : World F} {g : NodeId → Lin F} (h : Inv w g) (op : UnOp) {x : UF F}
    (hx : x.OK w) :
    ∃ w' g' r, w.unop op x = (w', r) ∧ Evolves w g w' g' ∧
      ResOK w' g' r (specCall op.wrapDef [.unc (x.abs g)] []) := by
  obtain ⟨wf, hwf, hdf⟩ := h.op_wrap _ _ (opDefs_unop op)
  obtain ⟨w1, g1, r, a1, a2, a3⟩ := World.call_spec h _ wf hwf [.unc x] []
    (by intro a ha; simp at ha; subst ha; exact hx) (by simp)
  exact ⟨w1, g1, r, a1, a2, by rw [hdf] at a3; exact a3⟩

theorem ResOK.notImpl {w : World F} {g : NodeId → Lin F} {r : PyRes (Val F)} {sr : PyRes (SVal F)}
    (h : ResOK w g r sr) : r = .ok (.plain .notImpl) ↔ sr = .ok (.plain .notImpl) := by
  obtain ⟨h1, -⟩ := h
  rw [← h1]
  cases r with
  | error e => simp [Except.map]
  | ok v => cases v <;> simp [Except.map, Val.abs]

theorem Val.OK.evolves {w w' : World F} {g g' : NodeId → Lin F} (he : Evolves w g w' g')
    {v : Val F} (h : v.OK w) : v.OK w' := Val.OK.evolves' he.weaken h

theorem Val.abs_evolves {w w' : World F} {g g' : NodeId → Lin F} (he : Evolves w g w' g')
    {v : Val F} (h : v.OK w) : v.abs g' = v.abs g := Val.abs_evolves' he.weaken h

theorem World.reflected_spec {w : World F} {g : NodeId → Lin F} (h : Inv w g) (op : BinOp)
    {a b : Val F} (ha : a.OK w) (hb : b.OK w) :
    ∃ w' g' r, (match b with
      | .plain _ => (w, .error .typeError)
      | .unc _ =>
        match w.call op.rid [b, a] [] with
        | (w, .ok (.plain .notImpl)) => (w, .error .typeError)
        | r => r : World F × PyRes (Val F)) = (w', r) ∧ Evolves w g w' g' ∧
      ResOK w' g' r (match b.abs g with
        | .plain _ => .error .typeError
        | .unc _ =>
          match specCall op.rwrapDef [b.abs g, a.abs g] [] with
          | .ok (.plain .notImpl) => .error .typeError
          | r => r) := by
  cases b with
  | plain v => exact ⟨w, g, _, rfl, Evolves.refl h, rfl, by intro v hv; cases hv⟩
  | unc y =>
    obtain ⟨wf, hwf, hdf⟩ := h.op_wrap _ _ (opDefs_rbinop op)
    obtain ⟨w1, g1, r, a1, a2, a3⟩ := World.call_spec h _ wf hwf [.unc y, a] []
      (by intro z hz; rcases List.mem_cons.mp hz with rfl | hz
          · exact hb
          · simp at hz; subst hz; exact ha) (by simp)
    rw [hdf] at a3
    simp only [List.map_cons, List.map_nil] at a3
    simp only [a1]
    by_cases hr : r = .ok (.plain .notImpl)
    · subst hr
      have := a3.notImpl.mp rfl
      simp only [Val.abs_unc] at this ⊢
      rw [this]
      exact ⟨w1, g1, _, rfl, a2, rfl, by intro v hv; cases hv⟩
    · have hs : specCall op.rwrapDef [Val.abs g (.unc y), Val.abs g a] [] ≠
          .ok (.plain .notImpl) := fun hc => hr (a3.notImpl.mpr hc)
      refine ⟨w1, g1, r, ?_, a2, ?_⟩
      · split
        · rename_i w2 heq
          exact absurd (congrArg Prod.snd heq) hr
        · rfl
      · simp only [Val.abs_unc] at hs a3 ⊢
        cases hsc : specCall op.rwrapDef [.unc (y.abs g), a.abs g] [] with
        | error e => rw [hsc] at a3; exact a3
        | ok v =>
          rw [hsc] at a3 hs
          cases v with
          | unc q => exact a3
          | plain v =>
            cases v with
            | notImpl => exact absurd rfl hs
            | flt _ => exact a3
            | cplx => exact a3
            | other _ => exact a3

theorem World.binop_spec {w : World F} {g : NodeId → Lin F} (h : Inv w g) (op : BinOp)
    {a b : Val F} (ha : a.OK w) (hb : b.OK w) :
    ∃ w' g' r, w.binop op a b = (w', r) ∧ Evolves w g w' g' ∧
      ResOK w' g' r (specBinop op (a.abs g) (b.abs g)) := by
  cases a with
  | plain v => exact World.reflected_spec h op ha hb
  | unc x =>
    obtain ⟨wf, hwf, hdf⟩ := h.op_wrap _ _ (opDefs_binop op)
    obtain ⟨w1, g1, r, a1, a2, a3⟩ := World.call_spec h _ wf hwf [.unc x, b] []
      (by intro z hz; rcases List.mem_cons.mp hz with rfl | hz
          · exact ha
          · simp at hz; subst hz; exact hb) (by simp)
    rw [hdf] at a3
    simp only [List.map_cons, List.map_nil] at a3
    simp only [World.binop, a1, specBinop, Val.abs_unc]
    by_cases hr : r = .ok (.plain .notImpl)
    · subst hr
      have := a3.notImpl.mp rfl
      simp only [Val.abs_unc] at this
      simp only [this]
      obtain ⟨w2, g2, r2, b1, b2, b3⟩ := World.reflected_spec a2.inv op
        (Val.OK.evolves a2 ha) (Val.OK.evolves a2 hb)
      rw [Val.abs_evolves a2 ha, Val.abs_evolves a2 hb] at b3
      exact ⟨w2, g2, r2, b1, a2.trans b2, b3⟩
    · have hs : specCall op.wrapDef [Val.abs g (.unc x), Val.abs g b] [] ≠
          .ok (.plain .notImpl) := fun hc => hr (a3.notImpl.mpr hc)
      refine ⟨w1, g1, r, ?_, a2, ?_⟩
      · split
        · rename_i w2 heq
          exact absurd (congrArg Prod.snd heq) hr
        · rfl
      · simp only [Val.abs_unc] at hs a3
        split
        · rename_i heq
          exact absurd heq hs
        · exact a3

end exact

end Unc
