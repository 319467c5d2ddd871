import Verif.Lemmas.Sees

/-
Results of the operators in the specification, when the float operation and the derivatives have
values.
-/

namespace Unc

set_option linter.unusedSectionVars false
set_option autoImplicit false

variable {F : Type} [PyMath F]

theorem BinOp.func_flt {op : BinOp} {x y z : F} (h : op.onFloats x y = .ok (.flt z)) :
    op.func [.flt x, .flt y] [] = .ok (.flt z) := by
  cases op <;> simp [BinOp.func, BinOp.method, h, noComplexResult]

theorem BinOp.rfunc_flt {op : BinOp} {x y z : F} (h : op.onFloats x y = .ok (.flt z)) :
    op.rfunc [.flt y, .flt x] [] = .ok (.flt z) := by
  cases op <;> simp [BinOp.rfunc, BinOp.rmethod, h, noComplexResult]

theorem specCall_ok {df : WrapDef F} {args : List (SVal F)} {kwargs : List (String × SVal F)} {z : F}
    {l1 l2 : List (F × Lin F)}
    (hf : df.f (args.map SVal.nominal) (kwargs.map (fun p => (p.1, p.2.nominal))) = .ok (.flt z))
    (hu : (args.all (fun a => !a.isUnc) && kwargs.all (fun p => !p.2.isUnc)) = false)
    (h1 : specPosTerms df (args.map SVal.nominal) (kwargs.map (fun p => (p.1, p.2.nominal))) 0 args =
      .ok l1)
    (h2 : specKwTerms df (args.map SVal.nominal) (kwargs.map (fun p => (p.1, p.2.nominal))) kwargs =
      .ok l2) :
    specCall df args kwargs = .ok (.unc ⟨z, Lin.comb (l1 ++ l2), none⟩) := by
  unfold specCall
  simp only [hf, hu, h1, h2, PyVal.floatLike, PyVal.toFloat]
  rfl

theorem specBinop_unc_unc {op : BinOp} {p q : SQ F} {z a b : F}
    (h : op.onFloats p.nom q.nom = .ok (.flt z)) (ha : op.deriv0 p.nom q.nom = .ok a)
    (hb : op.deriv1 p.nom q.nom = .ok b) :
    specBinop op (.unc p) (.unc q) =
      .ok (.unc ⟨z, Lin.comb [(a, p.grad), (b, q.grad)], none⟩) := by
  have hc : specCall op.wrapDef [.unc p, .unc q] [] =
      .ok (.unc ⟨z, Lin.comb ([(a, p.grad), (b, q.grad)] ++ []), none⟩) := by
    refine specCall_ok (BinOp.func_flt h) rfl ?_ rfl
    have e0 : (op.wrapDef : WrapDef F).specPos 0 [.flt p.nom, .flt q.nom] [] = .ok a := ha
    have e1 : (op.wrapDef : WrapDef F).specPos 1 [.flt p.nom, .flt q.nom] [] = .ok b := hb
    simp only [specPosTerms, List.map_cons, List.map_nil, SVal.nominal, e0, e1, Nat.zero_add]
  unfold specBinop
  simp only [hc, List.append_nil]

theorem specBinop_unc_flt {op : BinOp} {p : SQ F} {y z a : F}
    (h : op.onFloats p.nom y = .ok (.flt z)) (ha : op.deriv0 p.nom y = .ok a) :
    specBinop op (.unc p) (.plain (.flt y)) = .ok (.unc ⟨z, Lin.comb [(a, p.grad)], none⟩) := by
  have hc : specCall op.wrapDef [.unc p, .plain (.flt y)] [] =
      .ok (.unc ⟨z, Lin.comb ([(a, p.grad)] ++ []), none⟩) := by
    refine specCall_ok (BinOp.func_flt h) rfl ?_ rfl
    have e0 : (op.wrapDef : WrapDef F).specPos 0 [.flt p.nom, .flt y] [] = .ok a := ha
    simp only [specPosTerms, List.map_cons, List.map_nil, SVal.nominal, e0]
  unfold specBinop
  simp only [hc, List.append_nil]

theorem specBinop_flt_unc {op : BinOp} {q : SQ F} {x z b : F}
    (h : op.onFloats x q.nom = .ok (.flt z)) (hb : op.deriv1 x q.nom = .ok b) :
    specBinop op (.plain (.flt x)) (.unc q) = .ok (.unc ⟨z, Lin.comb [(b, q.grad)], none⟩) := by
  have hc : specCall op.rwrapDef [.unc q, .plain (.flt x)] [] =
      .ok (.unc ⟨z, Lin.comb ([(b, q.grad)] ++ []), none⟩) := by
    refine specCall_ok (BinOp.rfunc_flt h) rfl ?_ rfl
    have e0 : (op.rwrapDef : WrapDef F).specPos 0 [.flt q.nom, .flt x] [] = .ok b := hb
    simp only [specPosTerms, List.map_cons, List.map_nil, SVal.nominal, e0]
  unfold specBinop
  simp only [hc, List.append_nil]

theorem specUnop_unc {op : UnOp} {p : SQ F} {z a : F} (h : op.onFloat p.nom = .ok z)
    (ha : op.deriv p.nom = .ok a) :
    specCall op.wrapDef [.unc p] [] = .ok (.unc ⟨z, Lin.comb [(a, p.grad)], none⟩) := by
  have hf : op.func [.flt p.nom] [] = .ok (.flt z) := by simp [UnOp.func, h, Except.map]
  have hc : specCall op.wrapDef [.unc p] [] =
      .ok (.unc ⟨z, Lin.comb ([(a, p.grad)] ++ []), none⟩) := by
    refine specCall_ok hf rfl ?_ rfl
    have e0 : (op.wrapDef : WrapDef F).specPos 0 [.flt p.nom] [] = .ok a := ha
    simp only [specPosTerms, List.map_cons, List.map_nil, SVal.nominal, e0]
  simpa using hc

variable [ExactLin F]

theorem Reaches.nil : Reaches ([] : List (Cmd F)) SState.init :=
  ⟨.nil _, _, Rel.init⟩

theorem Reaches.ufloat {cs : List (Cmd F)} {s : SState F} (h : Reaches cs s) {n std : F}
    (tag : Option String) (hb : specBadStd std = false) :
    sees cs (.ufloat n std tag) = .done ∧
    Reaches (cs ++ [.ufloat n std tag]) ⟨s.vars ++ [⟨n, std, tag⟩], s.fns,
      s.env ++ [some (.unc ⟨n, Lin.single s.vars.length, some s.vars.length⟩)]⟩ := by
  obtain ⟨h1, h2⟩ := h.snoc (.ufloat n std tag) rfl
  simp only [SState.step, hb] at h1 h2
  exact ⟨h1, h2⟩

/-- A quantity that results from an operation. -/
theorem Reaches.binop {cs : List (Cmd F)} {s : SState F} (h : Reaches cs s) {op : BinOp}
    {x y : Arg F} {a b : SVal F} {q : SQ F} (hx : x.seval s.env = some a) (hy : y.seval s.env = some b)
    (hr : specBinop op a b = .ok (.unc q)) (hu : (a.isUnc || b.isUnc) = true) :
    sees cs (.binop op x y) = .done ∧
    Reaches (cs ++ [.binop op x y]) ⟨s.vars, s.fns, s.env ++ [some (.unc q)]⟩ := by
  obtain ⟨h1, h2⟩ := h.snoc (.binop op x y) rfl
  simp only [SState.step, hx, hy, hu, hr, SState.bind, if_true] at h1 h2
  exact ⟨h1, h2⟩

theorem Reaches.unop {cs : List (Cmd F)} {s : SState F} (h : Reaches cs s) {op : UnOp}
    {x : Arg F} {p q : SQ F} (hx : x.sevalUnc s.env = some p)
    (hr : specCall op.wrapDef [.unc p] [] = .ok (.unc q)) :
    sees cs (.unop op x) = .done ∧
    Reaches (cs ++ [.unop op x]) ⟨s.vars, s.fns, s.env ++ [some (.unc q)]⟩ := by
  obtain ⟨h1, h2⟩ := h.snoc (.unop op x) rfl
  simp only [SState.step, hx, hr, SState.bind] at h1 h2
  exact ⟨h1, h2⟩

theorem seval_of_sevalUnc {env : List (Option (SVal F))} {x : Arg F} {q : SQ F}
    (h : x.sevalUnc env = some q) : x.seval env = some (.unc q) := by
  simp only [Arg.sevalUnc] at h
  split at h
  · rename_i q' hx; cases h; exact hx
  · cases h

/-- The value bound by the last command. -/
theorem Reaches.next_eval {cs : List (Cmd F)} {s : SState F} (h : Reaches cs s) {vars : List (SVar F)}
    {fns : List (WrapDef F)} {q : SQ F} {l : List (Option (SVal F))} :
    (next cs).sevalUnc (⟨vars, fns, s.env ++ some (.unc q) :: l⟩ : SState F).env = some q := by
  simp [next, Arg.sevalUnc, Arg.seval, ← h.env_length]

end Unc
