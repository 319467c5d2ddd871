import Verif.Props.C01_Nominal

/-
Calls and operations succeed when the function of floats and the derivatives do: for every float
semantics.
-/

namespace Unc

set_option autoImplicit false

variable {F : Type} [PyMath F] [Halts F]

theorem call_done {cs : List (Cmd F)} {f : Nat} {df : WrapDef F} (hf : (fnsOf cs)[f]? = some df)
    {args : List (Arg F)} {av : List (PyVal F)} {z : F} (ha : Nominals cs args av)
    (hz : df.f av [] = .ok (.flt z)) (hd : ∀ i, i < av.length → ∃ c, df.specPos i av [] = .ok c) :
    sees cs (.call f args []) = .done ∧
      sees (cs ++ [.call f args []]) (.nominal (next cs)) = .val (.flt z) := by
  have hdone : sees cs (.call f args []) = .done := by
    obtain ⟨as, ha1, ha2⟩ := ha.eval
    obtain ⟨hlt, hdf⟩ := fns_get hf
    have hm := MShape.after cs
    have hav : ∀ v ∈ as, v.Valid (after cs).w := by
      intro v hv
      obtain ⟨x, -, hx⟩ := evalArgs_all ha1 v hv
      exact hm.eval hx
    obtain ⟨w', r, h1, h2, h3⟩ := World.call_shape hm.shape hdf hav (kwargs := []) (by simp)
    have hstep : (after cs).step (.call f args []) = Machine.bind (after cs).env w' r := by
      simp only [Machine.step, hlt, if_true, ha1, evalArgs, h1]
    simp only [sees]
    rw [hstep]
    simp only [List.map_nil, ha2] at h3
    cases h3 with
    | raises e h => rw [hz] at h; cases h
    | plain v h hu => rw [hz] at h; cases h; rfl
    | notImpl v h hu hv => rw [hz] at h; cases h; cases hv
    | notReal v e h hu hfl hv => rw [hz] at h; cases h; cases hv
    | derivFails v e h hu hv hd' =>
      rcases hd' with ⟨i, u, h4, h5⟩ | ⟨n, u, h4, h5⟩
      · have hi : i < av.length := by
          rw [← ha2, List.length_map]
          exact (List.getElem?_eq_some_iff.mp h4).1
        obtain ⟨c, hc⟩ := hd i hi
        simp only [List.map_nil, ha2] at h5
        rw [hc] at h5
        cases h5
      · simp at h4
    | unc x u h hu hv hn hvar hlin => rfl
  refine ⟨hdone, ?_⟩
  obtain ⟨v, hv, h⟩ := (call_nominal hf ha (kwargs := []) (kv := []) trivial).2.1 hdone
  rw [hz] at hv
  cases hv
  exact h

theorem binop_done {cs : List (Cmd F)} {op : BinOp} {a b : Arg F} {x y z : F}
    (ha : sees cs (.nominal a) = .val (.flt x)) (hb : sees cs (.nominal b) = .val (.flt y))
    (hu : sees cs (.binop op a b) ≠ .invalid) (hz : op.onFloats x y = .ok (.flt z))
    (h0 : (∃ u, a.eval (after cs).env = some (.unc u)) → ∃ c, op.deriv0 x y = .ok c)
    (h1 : (∃ u, b.eval (after cs).env = some (.unc u)) → ∃ c, op.deriv1 x y = .ok c) :
    sees cs (.binop op a b) = .done ∧
      sees (cs ++ [.binop op a b]) (.nominal (next cs)) = .val (.flt z) := by
  have hp : plainBinop op (.flt x) (.flt y) = .ok (.flt z) := by
    rw [← BinOp.func_floats op x y]
    cases op <;> simp only [BinOp.func, noComplexResult, BinOp.method] <;> rw [hz]
  suffices hdone : sees cs (.binop op a b) = .done by
    refine ⟨hdone, ?_⟩
    obtain ⟨v, hv, h⟩ := (C01_binop cs op a b _ _ ha hb hu).2 hdone
    rw [hp] at hv
    cases hv
    exact h
  obtain ⟨a', ha', hna⟩ := sees_nominal ha
  obtain ⟨b', hb', hnb⟩ := sees_nominal hb
  have hm := MShape.after cs
  have hunc : (a'.isUnc || b'.isUnc) = true := by
    by_contra hn
    apply hu
    have hf : (a'.isUnc || b'.isUnc) = false := by simpa using hn
    simp [sees, Machine.step, ha', hb', hf, Machine.invalid]
  have two : ∀ {a b : Val F}, a.Valid (after cs).w → b.Valid (after cs).w →
      ∀ c ∈ [a, b], c.Valid (after cs).w := by
    intro a b ha hb c hc
    simp only [List.mem_cons, List.not_mem_nil, or_false] at hc
    rcases hc with rfl | rfl
    · exact ha
    · exact hb
  have key : ∀ (w' : World F) (df : WrapDef F) (args : List (Val F)) (r : PyRes (Val F)),
      args.length = 2 → noUnc args [] = false →
      (∀ i < 2, (∃ u, args[i]? = some (.unc u)) → ∃ c, df.specPos i (args.map Val.nominal) [] = .ok c) →
      CallRes w' df args [] (.ok (.flt z)) r → ∃ u, r = .ok (.unc u) := by
    intro w' df args r hl hn hd hc
    cases hc with
    | raises e h => cases h
    | plain v h hu => rw [hn] at hu; cases hu
    | notImpl v h hu hv => cases h; cases hv
    | notReal v e h hu hfl hv => cases h; cases hv
    | derivFails v e h hu hv hd' =>
      rcases hd' with ⟨i, u, h4, h5⟩ | ⟨n, u, h4, h5⟩
      · obtain ⟨c, hc⟩ := hd i (hl ▸ (List.getElem?_eq_some_iff.mp h4).1) ⟨u, h4⟩
        simp only [List.map_nil] at h5
        rw [hc] at h5
        cases h5
      · simp at h4
    | unc x u h hu hv hn hvar hlin => exact ⟨u, rfl⟩
  cases a' with
  | unc p =>
    obtain ⟨w1, r1, k1, k2, k3⟩ := World.call_shape hm.shape (hm.ops.binop op) (args := [.unc p, b'])
      (kwargs := []) (two (hm.eval ha') (hm.eval hb')) (by simp)
    simp only [List.map_cons, List.map_nil, hna, hnb] at k3
    rw [show (op.wrapDef : WrapDef F).f [.flt x, .flt y] [] = .ok (.flt z) from
      (BinOp.func_floats op x y).trans hp] at k3
    obtain ⟨u, rfl⟩ := key _ _ _ _ rfl rfl (by
      simp only [List.map_cons, List.map_nil, hna, hnb]
      intro i hi hiu
      match i, hi, hiu with
      | 0, _, _ => exact h0 ⟨p, ha'⟩
      | 1, _, ⟨q, hq⟩ => exact h1 ⟨q, hb'.trans hq⟩) k3
    simp only [sees, Machine.step, ha', hb', hunc, if_true, World.binop, k1]
    rfl
  | plain c =>
    cases b' with
    | plain d => simp [Val.isUnc] at hunc
    | unc q =>
      obtain ⟨w1, r1, k1, k2, k3⟩ := World.call_shape hm.shape (hm.ops.rbinop op)
        (args := [.unc q, .plain c]) (kwargs := []) (two (hm.eval hb') (hm.eval ha')) (by simp)
      simp only [List.map_cons, List.map_nil, hna, hnb] at k3
      rw [show (op.rwrapDef : WrapDef F).f [.flt y, .flt x] [] = .ok (.flt z) from
        (BinOp.rfunc_floats op x y).trans hp] at k3
      obtain ⟨u, rfl⟩ := key _ _ _ _ rfl rfl (by
        simp only [List.map_cons, List.map_nil, hna, hnb]
        intro i hi hiu
        match i, hi, hiu with
        | 0, _, _ => exact h1 ⟨q, hb'⟩
        | 1, _, ⟨p, hp⟩ => exact h0 ⟨p, ha'.trans hp⟩) k3
      simp only [sees, Machine.step, ha', hb', hunc, if_true, World.binop, k1]
      rfl

end Unc
