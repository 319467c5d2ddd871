import Verif.Lemmas.Shape
import Verif.Spec.Plain

/-
The invariant `Shape` for calls of functions, operators, comparisons and copies.
-/

namespace Unc

set_option linter.unusedSectionVars false
set_option autoImplicit false

section floats
variable {F : Type} [PyFloat F]

theorem posTerms_shape (w : World F) (av : List (PyVal F)) (kv : KwArgs F)
    (args : List (Val F)) (pos : Nat) (wf : Wrapped F) (acc : List (Item F)) (hwf : wf.OK)
    (hargs : ∀ a ∈ args, a.Valid w) (hacc : ItemsBelow w.nodes.length acc) :
    ∃ wf' r, posTerms av kv pos args wf acc = (wf', r) ∧ wf'.OK ∧ wf'.df = wf.df ∧
      (∀ ts, r = .ok ts → ItemsBelow w.nodes.length ts) ∧
      (∀ e, r = .error e → ∃ i u, args[i]? = some (.unc u) ∧
        wf.df.specPos (pos + i) av kv = .error e) := by
  induction args generalizing pos wf acc with
  | nil => exact ⟨wf, _, rfl, hwf, rfl, fun ts h => by cases h; exact hacc, fun e h => by cases h⟩
  | cons a args ih =>
    have hargs' : ∀ a ∈ args, a.Valid w := fun b hb => hargs b (by simp [hb])
    cases a with
    | plain v =>
      obtain ⟨wf', r, h1, h2, h3, h4, h5⟩ := ih (pos + 1) wf acc hwf hargs' hacc
      refine ⟨wf', r, h1, h2, h3, h4, fun e he => ?_⟩
      obtain ⟨i, u, a1, a2⟩ := h5 e he
      exact ⟨i + 1, u, by simpa using a1, by rw [← a2]; congr 1; omega⟩
    | unc u =>
      have hu : u.Valid w := hargs (.unc u) (by simp)
      obtain ⟨wf1, h1, h2, h3⟩ := Wrapped.posDeriv_ok hwf pos
      simp only [posTerms, h1]
      cases hd : wf.df.specPos pos av kv with
      | error e =>
        refine ⟨wf1, _, rfl, h2, h3, fun ts h => (by cases h), fun e' he => ?_⟩
        cases he
        exact ⟨0, u, rfl, hd⟩
      | ok c =>
        have hacc' : ItemsBelow w.nodes.length (Item.pair c u.lin :: acc) := by
          intro t ht
          rcases List.mem_cons.mp ht with h | h
          · exact ⟨c, u.lin, h, hu.1⟩
          · exact hacc t h
        obtain ⟨wf2, r, k0, k1, k2, k3, k4⟩ := ih (pos + 1) wf1 (.pair c u.lin :: acc) h2 hargs' hacc'
        refine ⟨wf2, r, k0, k1, k2.trans h3, k3, fun e he => ?_⟩
        obtain ⟨i, u', a1, a2⟩ := k4 e he
        rw [h3] at a2
        exact ⟨i + 1, u', by simpa using a1, by rw [← a2]; congr 1; omega⟩

theorem kwTerms_shape (w : World F) (av : List (PyVal F)) (kv : KwArgs F)
    (kwargs : List (String × Val F)) (wf : Wrapped F) (acc : List (Item F)) (hwf : wf.OK)
    (hargs : ∀ p ∈ kwargs, p.2.Valid w) (hacc : ItemsBelow w.nodes.length acc) :
    ∃ wf' r, kwTerms av kv kwargs wf acc = (wf', r) ∧ wf'.OK ∧ wf'.df = wf.df ∧
      (∀ ts, r = .ok ts → ItemsBelow w.nodes.length ts) ∧
      (∀ e, r = .error e → ∃ name u, (name, Val.unc u) ∈ kwargs ∧
        wf.df.specKw name av kv = .error e) := by
  induction kwargs generalizing wf acc with
  | nil => exact ⟨wf, _, rfl, hwf, rfl, fun ts h => by cases h; exact hacc, fun e h => by cases h⟩
  | cons p kwargs ih =>
    obtain ⟨name, a⟩ := p
    have hargs' : ∀ p ∈ kwargs, p.2.Valid w := fun b hb => hargs b (by simp [hb])
    cases a with
    | plain v =>
      obtain ⟨wf', r, h1, h2, h3, h4, h5⟩ := ih wf acc hwf hargs' hacc
      refine ⟨wf', r, h1, h2, h3, h4, fun e he => ?_⟩
      obtain ⟨n, u, a1, a2⟩ := h5 e he
      exact ⟨n, u, List.mem_cons_of_mem _ a1, a2⟩
    | unc u =>
      have hu : u.Valid w := hargs (name, .unc u) (by simp)
      obtain ⟨wf1, h1, h2, h3⟩ := Wrapped.kwDeriv_ok hwf name
      simp only [kwTerms, h1]
      cases hd : wf.df.specKw name av kv with
      | error e =>
        refine ⟨wf1, _, rfl, h2, h3, fun ts h => (by cases h), fun e' he => ?_⟩
        cases he
        exact ⟨name, u, by simp, hd⟩
      | ok c =>
        have hacc' : ItemsBelow w.nodes.length (Item.pair c u.lin :: acc) := by
          intro t ht
          rcases List.mem_cons.mp ht with h | h
          · exact ⟨c, u.lin, h, hu.1⟩
          · exact hacc t h
        obtain ⟨wf2, r, k0, k1, k2, k3, k4⟩ := ih wf1 (.pair c u.lin :: acc) h2 hargs' hacc'
        refine ⟨wf2, r, k0, k1, k2.trans h3, k3, fun e he => ?_⟩
        obtain ⟨n, u', a1, a2⟩ := k4 e he
        rw [h3] at a2
        exact ⟨n, u', List.mem_cons_of_mem _ a1, a2⟩

/-- No argument with uncertainty. -/
def noUnc (args : List (Val F)) (kwargs : List (String × Val F)) : Bool :=
  args.all (fun a => !a.isUnc) && kwargs.all (fun p => !p.2.isUnc)

/-- A derivative that fails. -/
def DerivFails (df : WrapDef F) (args : List (Val F)) (kwargs : List (String × Val F)) (e : PyErr) :
    Prop :=
  (∃ i u, args[i]? = some (.unc u) ∧
    df.specPos i (args.map Val.nominal) (kwargs.map (fun p => (p.1, p.2.nominal))) = .error e) ∨
  (∃ name u, (name, Val.unc u) ∈ kwargs ∧
    df.specKw name (args.map Val.nominal) (kwargs.map (fun p => (p.1, p.2.nominal))) = .error e)

/-- The possible results of a call. -/
inductive CallRes (w' : World F) (df : WrapDef F) (args : List (Val F))
    (kwargs : List (String × Val F)) (p : PyRes (PyVal F)) : PyRes (Val F) → Prop
  | raises (e : PyErr) (h : p = .error e) : CallRes w' df args kwargs p (.error e)
  | plain (v : PyVal F) (h : p = .ok v) (hu : noUnc args kwargs = true) :
      CallRes w' df args kwargs p (.ok (.plain v))
  | notImpl (v : PyVal F) (h : p = .ok v) (hu : noUnc args kwargs = false)
      (hv : v.floatLike = false) : CallRes w' df args kwargs p (.ok (.plain .notImpl))
  | notReal (v : PyVal F) (e : PyErr) (h : p = .ok v) (hu : noUnc args kwargs = false)
      (hfl : v.floatLike = true) (hv : v.toFloat = .error e) : CallRes w' df args kwargs p (.error e)
  | derivFails (v : PyVal F) (e : PyErr) (h : p = .ok v) (hu : noUnc args kwargs = false)
      (hv : v.floatLike = true) (hd : DerivFails df args kwargs e) :
      CallRes w' df args kwargs p (.error e)
  | unc (x : F) (u : UF F) (h : p = .ok (.flt x)) (hu : noUnc args kwargs = false)
      (hv : u.Valid w') (hn : u.nom = x) (hvar : u.var = none)
      (hlin : ∃ ts, w'.nodes[u.lin]? = some (.terms ts)) :
      CallRes w' df args kwargs p (.ok (.unc u))

theorem Shape.setWrap {w : World F} (h : Shape w) {fid : Nat} {wf wf' : Wrapped F}
    (hg : w.wraps[fid]? = some wf) (hok : wf'.OK) (hdf : wf'.df = wf.df) :
    Reads w { w with wraps := w.wraps.set fid wf' } := by
  have hlt : fid < w.wraps.length := (List.getElem?_eq_some_iff.mp hg).1
  refine ⟨⟨h.heap, h.keys, h.vars, h.std, ?_⟩, Nat.le_refl _, rfl, ?_⟩
  · intro k wk hk
    simp only at hk
    by_cases e : fid = k
    · subst e
      rw [List.getElem?_set_self hlt] at hk
      cases hk; exact hok
    · rw [List.getElem?_set_ne e] at hk; exact h.wraps k wk hk
  · apply List.ext_getElem?
    intro k
    simp only [List.getElem?_map]
    by_cases e : fid = k
    · subst e
      rw [List.getElem?_set_self hlt, hg]
      simp [hdf]
    · rw [List.getElem?_set_ne e]

theorem World.call_shape {w : World F} (h : Shape w) {fid : Nat} {df : WrapDef F}
    (hf : (w.wraps[fid]?).map Wrapped.df = some df) {args : List (Val F)}
    {kwargs : List (String × Val F)} (hargs : ∀ a ∈ args, a.Valid w)
    (hkw : ∀ p ∈ kwargs, p.2.Valid w) :
    ∃ w' r, w.call fid args kwargs = (w', r) ∧ Reads w w' ∧
      CallRes w' df args kwargs
        (df.f (args.map Val.nominal) (kwargs.map (fun p => (p.1, p.2.nominal)))) r := by
  cases hg : w.wraps[fid]? with
  | none => rw [hg] at hf; cases hf
  | some wf =>
  rw [hg] at hf
  simp only [Option.map_some, Option.some.injEq] at hf
  subst hf
  have hwf := h.wraps fid wf hg
  have same := h.setWrap hg hwf rfl
  simp only [World.call, hg, callTerms]
  have hnu : noUnc args kwargs = (args.all (fun a => !a.isUnc) && kwargs.all (fun p => !p.2.isUnc)) :=
    rfl
  rw [← hnu]
  cases hn : noUnc args kwargs with
  | true =>
    simp only [if_true]
    cases hv : wf.df.f (args.map Val.nominal) (kwargs.map (fun p => (p.1, p.2.nominal))) with
    | error e => exact ⟨_, _, rfl, same, .raises e rfl⟩
    | ok v => exact ⟨_, _, rfl, same, .plain v rfl hn⟩
  | false =>
    simp only [Bool.false_eq_true, if_false]
    cases hv : wf.df.f (args.map Val.nominal) (kwargs.map (fun p => (p.1, p.2.nominal))) with
    | error e => exact ⟨_, _, rfl, same, .raises e rfl⟩
    | ok v =>
      simp only []
      cases hfl : v.floatLike with
      | false => exact ⟨_, _, rfl, same, .notImpl v rfl hn hfl⟩
      | true =>
        simp only [Bool.not_true, Bool.false_eq_true, if_false]
        obtain ⟨wf1, r1, a1, a2, a3, a4, a5⟩ := posTerms_shape w (args.map Val.nominal)
          (kwargs.map (fun p => (p.1, p.2.nominal))) args 0 wf [] hwf hargs (by intro t ht; cases ht)
        simp only [a1]
        cases r1 with
        | error e =>
          obtain ⟨i, u, b1, b2⟩ := a5 e rfl
          exact ⟨_, _, rfl, h.setWrap hg a2 a3,
            .derivFails v e rfl hn hfl (Or.inl ⟨i, u, b1, by simpa using b2⟩)⟩
        | ok acc =>
          obtain ⟨wf2, r2, c1, c2, c3, c4, c5⟩ := kwTerms_shape w (args.map Val.nominal)
            (kwargs.map (fun p => (p.1, p.2.nominal))) kwargs wf1 acc a2 hkw (a4 acc rfl)
          simp only [c1]
          cases r2 with
          | error e =>
            obtain ⟨n, u, b1, b2⟩ := c5 e rfl
            exact ⟨_, _, rfl, h.setWrap hg c2 (c3.trans a3),
              .derivFails v e rfl hn hfl (Or.inr ⟨n, u, b1, by rw [← a3]; exact b2⟩)⟩
          | ok ts =>
            have hsw := h.setWrap hg c2 (c3.trans a3)
            cases hx : v.toFloat with
            | error e => exact ⟨_, _, rfl, hsw, .notReal v e rfl hn hfl hx⟩
            | ok x =>
              have hvx : v = .flt x := by
                cases v <;> simp [PyVal.toFloat] at hx
                rw [hx]
              subst hvx
              refine ⟨_, _, rfl, hsw.trans (hsw.shape.alloc (.terms ts) (fun d hd => by cases hd) ?_),
                .unc x _ rfl hn ?_ rfl rfl ?_⟩
              · intro ts' hts; cases hts; exact c4 ts rfl
              · exact ⟨by simp [World.alloc], by simp⟩
              · exact ⟨ts, by simp [World.alloc]⟩

/-- Relation between the result of an operation and the result of the operation with plain floats. -/
structure Nominally (w' : World F) (p : PyRes (PyVal F)) (r : PyRes (Val F)) : Prop where
  err : ∀ e, p = .error e → r = .error e
  ok : ∀ x, r = .ok x → x.Valid w' ∧ (x = .plain .notImpl ∨ p = .ok x.nominal)

theorem CallRes.nominally {w' : World F} {df : WrapDef F} {args : List (Val F)}
    {kwargs : List (String × Val F)} {p : PyRes (PyVal F)} {r : PyRes (Val F)}
    (h : CallRes w' df args kwargs p r) : Nominally w' p r := by
  cases h with
  | raises e h => exact ⟨fun e' he => by rw [h] at he; cases he; rfl, fun x hx => by cases hx⟩
  | plain v h hu =>
    refine ⟨fun e' he => (by rw [h] at he; cases he), fun x hx => ?_⟩
    cases hx; exact ⟨trivial, Or.inr h⟩
  | notImpl v h hu hv =>
    refine ⟨fun e' he => (by rw [h] at he; cases he), fun x hx => ?_⟩
    cases hx; exact ⟨trivial, Or.inl rfl⟩
  | notReal v e h hu hfl hv =>
    exact ⟨fun e' he => (by rw [h] at he; cases he), fun x hx => by cases hx⟩
  | derivFails v e h hu hv hd =>
    exact ⟨fun e' he => (by rw [h] at he; cases he), fun x hx => by cases hx⟩
  | unc x u h hu hv hn =>
    refine ⟨fun e' he => (by rw [h] at he; cases he), fun y hy => ?_⟩
    cases hy
    exact ⟨hv, Or.inr (by rw [h, ← hn]; rfl)⟩

end floats

/-! ### Operators -/

section ops
variable {F : Type} [PyOps F]

/-- The operators are the first functions. -/
def HasOps (w : World F) : Prop := opDefs <+: w.wraps.map Wrapped.df

theorem HasOps.fn {w : World F} (h : HasOps w) {i : Nat} {df : WrapDef F}
    (hi : opDefs[i]? = some df) : (w.wraps[i]?).map Wrapped.df = some df := by
  rw [← List.getElem?_map]
  obtain ⟨t, ht⟩ := h
  rw [← ht, List.getElem?_append_left (List.getElem?_eq_some_iff.mp hi).1]
  exact hi

theorem HasOps.unop {w : World F} (h : HasOps w) (op : UnOp) :
    (w.wraps[op.id]?).map Wrapped.df = some op.wrapDef := h.fn (by cases op <;> rfl)

theorem HasOps.binop {w : World F} (h : HasOps w) (op : BinOp) :
    (w.wraps[op.id]?).map Wrapped.df = some op.wrapDef := h.fn (by cases op <;> rfl)

theorem HasOps.rbinop {w : World F} (h : HasOps w) (op : BinOp) :
    (w.wraps[op.rid]?).map Wrapped.df = some op.rwrapDef := h.fn (by cases op <;> rfl)

theorem HasOps.of_fns {w w' : World F} (h : HasOps w)
    (e : w'.wraps.map Wrapped.df = w.wraps.map Wrapped.df) : HasOps w' := by
  unfold HasOps; rw [e]; exact h

theorem World.unop_shape {w : World F} (h : Shape w) (ho : HasOps w) (op : UnOp) {x : UF F}
    (hx : x.Valid w) :
    ∃ w' r, w.unop op x = (w', r) ∧ Reads w w' ∧
      CallRes w' op.wrapDef [.unc x] [] ((op.onFloat x.nom).map .flt) r := by
  have := World.call_shape h (ho.unop op) (args := [.unc x]) (kwargs := [])
    (by intro a ha; simp at ha; subst ha; exact hx) (by simp)
  exact this

theorem BinOp.onFloats_cplx {op : BinOp} {x y : F} (h : op.onFloats x y = .ok .cplx) : op = .pow := by
  cases op <;> simp only [BinOp.onFloats] at h <;> try cases h
  · cases hh : PyFloat.truediv x y <;> rw [hh] at h <;> simp [Except.map] at h
  · cases hh : PyOps.floordiv x y <;> rw [hh] at h <;> simp [Except.map] at h
  · cases hh : PyOps.mod x y <;> rw [hh] at h <;> simp [Except.map] at h
  · rfl

/-- The function wrapped for a binary operator, on floats. -/
theorem BinOp.func_floats (op : BinOp) (x y : F) :
    op.func [.flt x, .flt y] [] = plainBinop op (.flt x) (.flt y) := by
  by_cases hp : op = .pow
  · subst hp
    simp only [BinOp.func, BinOp.method, noComplexResult, plainBinop]
    cases h : BinOp.pow.onFloats x y with
    | error e => rfl
    | ok v => cases v <;> rfl
  · have h1 : op.func [.flt x, .flt y] [] = op.onFloats x y := by
      cases op <;> first | rfl | exact absurd rfl hp
    rw [h1]
    simp only [plainBinop]
    split
    · rename_i hc; exact absurd (BinOp.onFloats_cplx hc) hp
    · rfl

theorem BinOp.rfunc_floats (op : BinOp) (x y : F) :
    op.rfunc [.flt y, .flt x] [] = plainBinop op (.flt x) (.flt y) := by
  rw [← BinOp.func_floats]
  cases op <;> rfl

theorem BinOp.func_other (op : BinOp) (x : F) (b : PyVal F) (hb : ∀ y, b ≠ .flt y) :
    op.func [.flt x, b] [] = .ok .notImpl := by
  cases b <;> first | exact absurd rfl (hb _) | (cases op <;> rfl)

theorem BinOp.rfunc_other (op : BinOp) (x : F) (b : PyVal F) (hb : ∀ y, b ≠ .flt y) :
    op.rfunc [.flt x, b] [] = .ok .notImpl := by
  cases b <;> first | exact absurd rfl (hb _) | (cases op <;> rfl)

theorem plainBinop_floatLike {op : BinOp} {a b v : PyVal F} (h : plainBinop op a b = .ok v) :
    v.floatLike = true := by
  unfold plainBinop at h
  split at h
  · rename_i x y
    split at h
    · cases h
    · rename_i hc
      cases op <;> simp only [BinOp.onFloats] at h hc
      · cases h; rfl
      · cases h; rfl
      · cases h; rfl
      · cases hh : PyFloat.truediv x y <;> rw [hh] at h <;> simp [Except.map] at h
        rw [← h]; rfl
      · cases hh : PyOps.floordiv x y <;> rw [hh] at h <;> simp [Except.map] at h
        rw [← h]; rfl
      · cases hh : PyOps.mod x y <;> rw [hh] at h <;> simp [Except.map] at h
        rw [← h]; rfl
      · cases hh : PyOps.pow x y with
        | error e => rw [hh] at h; cases h
        | ok r =>
          rw [hh] at h hc
          cases r with
          | real z => cases h; rfl
          | complex => exact absurd rfl hc
  · cases h

/-- A binary operator with at least one number with uncertainty: the result is a number with
uncertainty whose nominal value is the result with plain floats, or an exception. -/
theorem World.binop_shape {w : World F} (h : Shape w) (ho : HasOps w) (op : BinOp) {a b : Val F}
    (ha : a.Valid w) (hb : b.Valid w) (hu : (a.isUnc || b.isUnc) = true) :
    ∃ w' r, w.binop op a b = (w', r) ∧ Reads w w' ∧
      Nominally w' (plainBinop op a.nominal b.nominal) r ∧
      (∀ x, r = .ok x → ∃ u, x = .unc u ∧ u.var = none ∧
        ∃ ts, w'.nodes[u.lin]? = some (.terms ts)) := by
  have two : ∀ {w : World F} {a b : Val F}, a.Valid w → b.Valid w → ∀ c ∈ [a, b], c.Valid w := by
    intro w a b ha hb c hc
    simp only [List.mem_cons, List.not_mem_nil, or_false] at hc
    rcases hc with rfl | rfl
    · exact ha
    · exact hb
  -- One call, when both operands are floats
  have one : ∀ (w w' : World F) (df : WrapDef F) (args : List (Val F)) (r : PyRes (Val F))
      (hn : noUnc args [] = false)
      (hc : CallRes w' df args [] (plainBinop op a.nominal b.nominal) r), 
      Nominally w' (plainBinop op a.nominal b.nominal) r ∧
      (∀ x, r = .ok x → ∃ u, x = .unc u ∧ u.var = none ∧
        ∃ ts, w'.nodes[u.lin]? = some (.terms ts)) := by
    intro w w' df args r hn hc
    refine ⟨hc.nominally, ?_⟩
    cases hc with
    | raises => intro x hx; cases hx
    | plain v h hu => rw [hn] at hu; cases hu
    | notImpl v h hu hv => rw [plainBinop_floatLike h] at hv; cases hv
    | notReal => intro x hx; cases hx
    | derivFails => intro x hx; cases hx
    | unc x u h hu hv hn hvar hl => intro y hy; cases hy; exact ⟨u, rfl, hvar, hl⟩
  cases a with
  | unc p =>
    obtain ⟨w1, r1, h1, h2, h3⟩ := World.call_shape h (ho.binop op) (args := [.unc p, b])
      (kwargs := []) (two ha hb) (by simp)
    have hn : noUnc [.unc p, b] [] = false := rfl
    by_cases hf : ∃ y, b.nominal = .flt y
    · obtain ⟨y, hy⟩ := hf
      have hfun : (op.wrapDef : WrapDef F).f ([.unc p, b].map Val.nominal) [] =
          plainBinop op (Val.unc p).nominal b.nominal := by
        simp only [List.map_cons, List.map_nil, hy]
        exact BinOp.func_floats op p.nom y
      simp only [List.map_nil] at h3
      rw [hfun] at h3
      obtain ⟨k1, k2⟩ := one w1 w1 _ _ r1 hn h3
      refine ⟨w1, r1, ?_, h2, k1, k2⟩
      simp only [World.binop, h1]
      split
      · rename_i heq
        simp only [Prod.mk.injEq] at heq
        obtain ⟨u, hu', -⟩ := k2 _ heq.2
        cases hu'
      · rfl
    · cases b with
      | unc q => exact absurd ⟨q.nom, rfl⟩ hf
      | plain v =>
        have hfun : (op.wrapDef : WrapDef F).f ([.unc p, .plain v].map Val.nominal) [] =
            .ok .notImpl :=
          BinOp.func_other op p.nom v (fun y hy => hf ⟨y, hy⟩)
        simp only [List.map_nil] at h3
        rw [hfun] at h3
        have hr : r1 = .ok (.plain .notImpl) := by
          cases h3 with
          | raises e h => cases h
          | plain v h hu => cases hu
          | notImpl => rfl
          | notReal v e h hu hfl hv =>
            cases h; cases hfl
          | derivFails v e h hu hv => cases h; cases hv
          | unc x u h => cases h
        subst hr
        refine ⟨w1, .error .typeError, ?_, h2, ⟨?_, ?_⟩, ?_⟩
        · simp only [World.binop, h1]
        · intro e he
          have : plainBinop op (Val.unc p).nominal (Val.plain v).nominal = .error .typeError := by
            cases v <;> first | rfl | exact absurd ⟨_, rfl⟩ hf
          rw [this] at he; cases he; rfl
        · intro x hx; cases hx
        · intro x hx; cases hx
  | plain c =>
    cases b with
    | plain d => simp [Val.isUnc] at hu
    | unc q =>
      obtain ⟨w1, r1, h1, h2, h3⟩ := World.call_shape h (ho.rbinop op) (args := [.unc q, .plain c])
        (kwargs := []) (two hb ha) (by simp)
      have hn : noUnc [.unc q, .plain c] [] = false := rfl
      by_cases hf : ∃ x, c = .flt x
      · obtain ⟨x, rfl⟩ := hf
        have hfun : (op.rwrapDef : WrapDef F).f ([.unc q, .plain (.flt x)].map Val.nominal) [] =
            plainBinop op (Val.plain (.flt x)).nominal (Val.unc q).nominal :=
          BinOp.rfunc_floats op x q.nom
        simp only [List.map_nil] at h3
        rw [hfun] at h3
        obtain ⟨k1, k2⟩ := one w1 w1 _ _ r1 hn h3
        refine ⟨w1, r1, ?_, h2, k1, k2⟩
        simp only [World.binop, h1]
        split
        · rename_i heq
          simp only [Prod.mk.injEq] at heq
          obtain ⟨u, hu', -⟩ := k2 _ heq.2
          cases hu'
        · rfl
      · have hfun : (op.rwrapDef : WrapDef F).f ([.unc q, .plain c].map Val.nominal) [] =
            .ok .notImpl :=
          BinOp.rfunc_other op q.nom c (fun y hy => hf ⟨y, hy⟩)
        simp only [List.map_nil] at h3
        rw [hfun] at h3
        have hp : plainBinop op (Val.plain c).nominal (Val.unc q).nominal = .error .typeError := by
          cases c <;> first | rfl | exact absurd ⟨_, rfl⟩ hf
        refine ⟨w1, .error .typeError, ?_, h2, ⟨?_, ?_⟩, ?_⟩
        · simp only [World.binop, h1]
          cases h3 with
          | raises e h => cases h
          | plain v h hu => cases hu
          | notImpl => rfl
          | notReal v e h hu hfl hv => cases h; cases hfl
          | derivFails v e h hu hv => cases h; cases hv
          | unc x u h => cases h
        · intro e he; rw [hp] at he; cases he; rfl
        · intro x hx; cases hx
        · intro x hx; cases hx

end ops

end Unc
