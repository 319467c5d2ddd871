import Verif.Lemmas.SameWraps
import Verif.Props.C19_Wrap

/-
The derivatives that a wrapped function took from its iterable are never given back.
-/

namespace Unc

set_option linter.unusedSectionVars false
set_option autoImplicit false

variable {F : Type}

section
variable [PyFloat F]

/-- The wrapped functions have taken at least as many elements. -/
def WLe (W W' : List (Wrapped F)) : Prop :=
  ∀ (f : Nat) wf, W[f]? = some wf → wf.OK → ∃ wf', W'[f]? = some wf' ∧ wf'.OK ∧ wf.iter.taken ≤ wf'.iter.taken

theorem WLe.refl (W : List (Wrapped F)) : WLe W W := fun _ wf h hok => ⟨wf, h, hok, Nat.le_refl _⟩

theorem WLe.trans {W W' W'' : List (Wrapped F)} (h1 : WLe W W') (h2 : WLe W' W'') : WLe W W'' := by
  intro f wf hf hok
  obtain ⟨wf', a, b, c⟩ := h1 f wf hf hok
  obtain ⟨wf'', a', b', c'⟩ := h2 f wf' a b
  exact ⟨wf'', a', b', Nat.le_trans c c'⟩

/-- What the loop over the positional arguments takes. -/
theorem posTerms_taken (av : List (PyVal F)) (kv : KwArgs F) (rest : List (Val F)) (k : Nat) (wf : Wrapped F) (hok : wf.OK)
    (acc : List (Item F)) :
    ((posTerms av kv k rest wf acc).1.OK ∧ wf.iter.taken ≤ (posTerms av kv k rest wf acc).1.iter.taken) ∧
    (∀ ts, (posTerms av kv k rest wf acc).2 = .ok ts → ∀ (i : Nat) u, rest[i]? = some (.unc u) →
      k + i < (posTerms av kv k rest wf acc).1.iter.taken) := by
  induction rest generalizing k wf acc with
  | nil => exact ⟨⟨hok, Nat.le_refl _⟩, fun ts _ i u hi => by simp at hi⟩
  | cons a rest ih =>
    cases a with
    | plain v =>
      obtain ⟨h1, h2⟩ := ih (k + 1) wf hok acc
      refine ⟨h1, ?_⟩
      intro ts hts i u hi
      cases i with
      | zero => simp at hi
      | succ i =>
        have := h2 ts hts i u (by simpa using hi)
        simp only [posTerms]
        omega
    | unc u =>
      obtain ⟨wf1, e1, e2, e3⟩ := Wrapped.posDeriv_ok hok k
      have ht := Wrapped.posDeriv_taken hok k
      rw [e1] at ht
      simp only at ht
      simp only [posTerms, e1]
      cases wf.df.specPos k av kv with
      | error e => exact ⟨⟨e2, by simp only; omega⟩, fun ts hts => by cases hts⟩
      | ok c =>
        simp only
        obtain ⟨⟨h1, h1'⟩, h2⟩ := ih (k + 1) wf1 e2 (.pair c u.lin :: acc)
        refine ⟨⟨h1, by omega⟩, ?_⟩
        intro ts hts i u' hi
        cases i with
        | zero => omega
        | succ i =>
          have := h2 ts hts i u' (by simpa using hi)
          omega

theorem kwTerms_taken (av : List (PyVal F)) (kv : KwArgs F) (rest : List (String × Val F)) (wf : Wrapped F) (hok : wf.OK)
    (acc : List (Item F)) : (kwTerms av kv rest wf acc).1.OK ∧ (kwTerms av kv rest wf acc).1.iter = wf.iter := by
  induction rest generalizing wf acc with
  | nil => exact ⟨hok, rfl⟩
  | cons a rest ih =>
    obtain ⟨name, a⟩ := a
    cases a with
    | plain v => exact ih wf hok acc
    | unc u =>
      obtain ⟨wf1, e1, e2, e3⟩ := Wrapped.kwDeriv_ok hok name
      have hi : wf1.iter = wf.iter := by
        have := congrArg (fun p => p.1.iter) e1
        simp only at this
        rw [← this]
        unfold Wrapped.kwDeriv
        split <;> rfl
      simp only [kwTerms, e1]
      cases wf.df.specKw name av kv with
      | error e => exact ⟨e2, hi⟩
      | ok c =>
        obtain ⟨h1, h2⟩ := ih wf1 e2 (.pair c u.lin :: acc)
        exact ⟨h1, h2.trans hi⟩

theorem callTerms_taken (wf : Wrapped F) (hok : wf.OK) (args : List (Val F)) (kwargs : List (String × Val F)) :
    ((callTerms wf args kwargs).1.OK ∧ wf.iter.taken ≤ (callTerms wf args kwargs).1.iter.taken) ∧
    (∀ r, (callTerms wf args kwargs).2 = .ok (.inr r) → ∀ (i : Nat) u, args[i]? = some (.unc u) →
      i < (callTerms wf args kwargs).1.iter.taken) := by
  have triv : ∀ (r : PyRes (PyVal F ⊕ (F × List (Item F)))), (∀ x, r ≠ .ok (.inr x)) →
      ((wf, r).1.OK ∧ wf.iter.taken ≤ (wf, r).1.iter.taken) ∧
      (∀ x, (wf, r).2 = .ok (.inr x) → ∀ (i : Nat) u, args[i]? = some (.unc u) → i < (wf, r).1.iter.taken) :=
    fun r hr => ⟨⟨hok, Nat.le_refl _⟩, fun x hx => absurd hx (hr x)⟩
  simp only [callTerms]
  split
  · cases wf.df.f (args.map Val.nominal) (kwargs.map fun p => (p.1, p.2.nominal)) with
    | error e => exact triv _ (fun x hx => by cases hx)
    | ok v => exact triv _ (fun x hx => by cases hx)
  · cases wf.df.f (args.map Val.nominal) (kwargs.map fun p => (p.1, p.2.nominal)) with
    | error e => exact triv _ (fun x hx => by cases hx)
    | ok v =>
      simp only
      split
      · exact triv _ (fun x hx => by cases hx)
      · obtain ⟨⟨p1, p2⟩, p3⟩ := posTerms_taken (args.map Val.nominal) (kwargs.map fun p => (p.1, p.2.nominal)) args 0 wf hok []
        rcases hpt : posTerms (args.map Val.nominal) (kwargs.map fun p => (p.1, p.2.nominal)) 0 args wf [] with ⟨wf1, r1⟩
        rw [hpt] at p1 p2 p3
        simp only [hpt]
        cases r1 with
        | error e => exact ⟨⟨p1, p2⟩, fun x hx => by cases hx⟩
        | ok acc =>
          simp only at p1 p2 p3 ⊢
          obtain ⟨q1, q2⟩ := kwTerms_taken (args.map Val.nominal) (kwargs.map fun p => (p.1, p.2.nominal)) kwargs wf1 p1 acc
          rcases hkt : kwTerms (args.map Val.nominal) (kwargs.map fun p => (p.1, p.2.nominal)) kwargs wf1 acc with ⟨wf2, r2⟩
          rw [hkt] at q1 q2
          simp only [hkt]
          simp only at q1 q2
          have hle : wf.iter.taken ≤ wf2.iter.taken := by rw [q2]; exact p2
          have hall : ∀ (i : Nat) u, args[i]? = some (.unc u) → i < wf2.iter.taken := by
            intro i u hi
            have := p3 acc rfl i u hi
            rw [q2]; omega
          cases r2 with
          | error e => exact ⟨⟨q1, hle⟩, fun x hx => by cases hx⟩
          | ok acc2 =>
            simp only
            cases v.toFloat with
            | error e => exact ⟨⟨q1, hle⟩, fun x hx => by cases hx⟩
            | ok x => exact ⟨⟨q1, hle⟩, fun _ _ => hall⟩

theorem WLe.set {W : List (Wrapped F)} {f : Nat} {wf wf' : Wrapped F} (hf : W[f]? = some wf)
    (h : wf.OK → wf'.OK ∧ wf.iter.taken ≤ wf'.iter.taken) : WLe W (W.set f wf') := by
  intro g wg hg hok
  by_cases he : f = g
  · subst he
    rw [hf] at hg; cases hg
    obtain ⟨h1, h2⟩ := h hok
    have hlt := (List.getElem?_eq_some_iff.mp hf).1
    exact ⟨wf', by rw [List.getElem?_set]; simp [hlt], h1, h2⟩
  · exact ⟨wg, by rw [List.getElem?_set_ne he]; exact hg, hok, Nat.le_refl _⟩

theorem call_grow (w : World F) (f : Nat) (args : List (Val F)) (kwargs : List (String × Val F)) :
    WLe w.wraps (w.call f args kwargs).1.wraps := by
  unfold World.call
  cases hf : w.wraps[f]? with
  | none => exact WLe.refl _
  | some wf =>
    have key : WLe w.wraps (w.wraps.set f (callTerms wf args kwargs).1) :=
      WLe.set hf (fun hok => (callTerms_taken wf hok args kwargs).1)
    simp only
    rcases hct : callTerms wf args kwargs with ⟨wf1, r⟩
    rw [hct] at key
    cases r with
    | error e => exact key
    | ok r =>
      cases r with
      | inl v => exact key
      | inr p => exact key

/-- Operations that do not look at the wrapped functions do not change them. -/
theorem wraps_of_withW {α : Type} (g : World F → World F × α) (hg : ∀ w W, g (w.withW W) = fw W (g w)) (w : World F) :
    (g w).1.wraps = w.wraps := by
  have h1 := hg w w.wraps
  rw [World.withW_self] at h1
  rw [h1]; rfl

theorem grow_of_withW {α : Type} (g : World F → World F × α) (hg : ∀ w W, g (w.withW W) = fw W (g w)) (w : World F) :
    WLe w.wraps (g w).1.wraps := by
  rw [wraps_of_withW g hg]; exact WLe.refl _

end

section
variable [PyMath F]

theorem eqAff_grow (w : World F) (sub : Nat) (x y : UF F) : WLe w.wraps (w.eqAff sub x y).1.wraps := by
  have h := call_grow w sub [.unc x, .unc y] []
  unfold World.eqAff
  rcases hc : w.call sub [.unc x, .unc y] [] with ⟨w1, r⟩
  rw [hc] at h
  cases r with
  | error e => exact h
  | ok v =>
    cases v with
    | plain _ => exact h
    | unc d =>
      simp only
      split
      · exact h
      · have h2 := grow_of_withW (fun w => w.stdDev d) (fun w W => World.stdDev_withW w W d) w1
        rcases hs : w1.stdDev d with ⟨w2, s⟩
        rw [hs] at h2
        cases s <;> exact h.trans h2

theorem cmpAff_grow (w : World F) (sub : Nat) (op : CmpOp) (x y : UF F) : WLe w.wraps (w.cmpAff sub op x y).1.wraps := by
  have h := eqAff_grow w sub x y
  cases op with
  | eq => exact h
  | ne =>
    simp only [World.cmpAff, World.neAff]
    rcases hc : w.eqAff sub x y with ⟨w1, r⟩
    rw [hc] at h
    cases r <;> exact h
  | gt => exact WLe.refl _
  | lt => exact WLe.refl _
  | ge =>
    simp only [World.cmpAff, World.geAff, World.gtAff]
    cases PyFloat.ltb y.nom x.nom with
    | true => exact WLe.refl _
    | false => exact h
  | le =>
    simp only [World.cmpAff, World.leAff, World.ltAff]
    cases PyFloat.ltb x.nom y.nom with
    | true => exact WLe.refl _
    | false => exact h

theorem cmp_grow (w : World F) (sub : Nat) (op : CmpOp) (x : UF F) (y : Val F) : WLe w.wraps (w.cmp sub op x y).1.wraps := by
  have h := grow_of_withW (fun w => w.toAffine y) (fun w W => World.toAffine_withW w W y) w
  unfold World.cmp
  rcases hc : w.toAffine y with ⟨w1, r⟩
  rw [hc] at h
  cases r with
  | error e => exact h
  | ok o =>
    cases o with
    | none => exact h
    | some y' =>
      have h2 := cmpAff_grow w1 sub op x y'
      simp only
      rcases hc2 : w1.cmpAff sub op x y' with ⟨w2, r2⟩
      rw [hc2] at h2
      cases r2 <;> exact h.trans h2

theorem cmpRun_grow (w : World F) (op : CmpOp) (x : UF F) (y : Val F) : WLe w.wraps (w.cmpRun op x y).1.wraps := by
  have h := cmp_grow w BinOp.sub.id op x y
  unfold World.cmpRun
  rcases hc : w.cmp BinOp.sub.id op x y with ⟨w1, r⟩
  rw [hc] at h
  cases r with
  | error e => exact h
  | ok o => cases o <;> exact h

theorem compare_grow (w : World F) (op : CmpOp) (x y : Val F) : WLe w.wraps (w.compare op x y).1.wraps := by
  cases x with
  | unc a =>
    cases y with
    | unc b =>
      simp only [World.compare]
      split <;> exact cmpRun_grow _ _ _ _
    | plain b => exact cmpRun_grow _ _ _ _
  | plain a =>
    cases y with
    | unc b => exact cmpRun_grow _ _ _ _
    | plain b => exact WLe.refl _

theorem toBool_grow (w : World F) (sub : Nat) (x : UF F) : WLe w.wraps (w.toBool sub x).1.wraps := by
  have h := cmp_grow w sub .ne x (.plain (.flt 0))
  unfold World.toBool
  rcases hc : w.cmp sub .ne x (.plain (.flt 0)) with ⟨w1, r⟩
  rw [hc] at h
  cases r with
  | error e => exact h
  | ok o => cases o <;> exact h

theorem binop_grow (w : World F) (op : BinOp) (a b : Val F) : WLe w.wraps (w.binop op a b).1.wraps := by
  have key : ∀ (b : Val F) (w : World F), WLe w.wraps (match b with
        | .plain _ => (w, .error .typeError)
        | .unc _ =>
          match w.call op.rid [b, a] [] with
          | (w, .ok (.plain .notImpl)) => (w, .error .typeError)
          | r => r : World F × PyRes (Val F)).1.wraps := by
    intro b w
    cases b with
    | plain v => exact WLe.refl _
    | unc u =>
      have h := call_grow w op.rid [.unc u, a] []
      simp only
      rcases hc : w.call op.rid [.unc u, a] [] with ⟨w1, r⟩
      rw [hc] at h
      cases r with
      | error e => exact h
      | ok o =>
        cases o with
        | unc _ => exact h
        | plain v => cases v <;> exact h
  unfold World.binop
  cases a with
  | plain v => exact key b w
  | unc u =>
    have h := call_grow w op.id [.unc u, b] []
    simp only
    rcases hc : w.call op.id [.unc u, b] [] with ⟨w1, r⟩
    rw [hc] at h
    cases r with
    | error e => exact h
    | ok o =>
      cases o with
      | unc _ => exact h
      | plain v =>
        cases v with
        | notImpl => exact h.trans (key b w1)
        | _ => exact h

theorem bind_wraps (env : List (Option (Val F))) (w : World F) (r : PyRes (Val F)) : (Machine.bind env w r).1.w = w := by
  cases r with
  | error e => rfl
  | ok v =>
    cases v with
    | unc _ => rfl
    | plain v => cases v <;> rfl

theorem read_grow (m : Machine F) (x : Arg F) (g : World F → UF F → World F × PyRes (Out F))
    (hg : ∀ (w : World F) (u : UF F), WLe w.wraps (g w u).1.wraps) : WLe m.w.wraps (m.read x g).1.w.wraps := by
  unfold Machine.read
  cases x.evalUnc m.env with
  | none => exact WLe.refl _
  | some u =>
    have h := hg m.w u
    simp only
    rcases hc : g m.w u with ⟨w1, r⟩
    rw [hc] at h
    cases r <;> exact h

theorem step_grow (m : Machine F) (c : Cmd F) : WLe m.w.wraps (m.step c).1.w.wraps := by
  have uf : ∀ (g : World F → World F × PyRes (UF F)), (∀ w W, g (w.withW W) = fw W (g w)) →
      WLe m.w.wraps (match g m.w with
        | (w, .error e) => ((⟨w, m.env ++ [none]⟩, .err e) : Machine F × Out F)
        | (w, .ok u) => (⟨w, m.env ++ [some (Val.unc u)]⟩, .done)).1.w.wraps := by
    intro g hg
    have h := grow_of_withW g hg m.w
    rcases hc : g m.w with ⟨w1, r⟩
    rw [hc] at h
    cases r <;> exact h
  cases c with
  | ufloat n s tag => exact uf (fun w => w.ufloat n s tag) (fun w W => World.ufloat_withW w W n s tag)
  | affine n items =>
    simp only [Machine.step]
    cases evalArgs (Arg.evalItem m.env) items with
    | none => exact WLe.refl _
    | some d =>
      simp only
      split <;> exact WLe.refl _
  | wrap df =>
    intro f wf hf hok
    refine ⟨wf, ?_, hok, Nat.le_refl _⟩
    simp only [Machine.step, World.wrap]
    rw [List.getElem?_append_left (List.getElem?_eq_some_iff.mp hf).1]
    exact hf
  | call f args kwargs =>
    simp only [Machine.step]
    split
    · cases evalArgs (Arg.eval m.env) args with
      | none => exact WLe.refl _
      | some a =>
        cases evalArgs (Arg.evalKw m.env) kwargs with
        | none => exact WLe.refl _
        | some k =>
          simp only [bind_wraps]
          exact call_grow _ _ _ _
    · exact WLe.refl _
  | unop op x =>
    simp only [Machine.step]
    cases x.evalUnc m.env with
    | none => exact WLe.refl _
    | some u =>
      simp only [bind_wraps]
      exact call_grow _ _ _ _
  | binop op x y =>
    simp only [Machine.step]
    cases x.eval m.env with
    | none => exact WLe.refl _
    | some a =>
      cases y.eval m.env with
      | none => exact WLe.refl _
      | some b =>
        simp only
        split
        · simp only [bind_wraps]
          exact binop_grow _ _ _ _
        · exact WLe.refl _
  | modf x =>
    simp only [Machine.step]
    cases x.eval m.env with
    | none => exact WLe.refl _
    | some v =>
      simp only
      split
      · exact WLe.refl _
      · have h := grow_of_withW (fun w => w.modf v) (fun w W => World.modf_withW w W v) m.w
        rcases hc : m.w.modf v with ⟨w1, r⟩
        rw [hc] at h
        cases r <;> exact h
  | ldexp x i =>
    simp only [Machine.step]
    cases x.eval m.env with
    | none => exact WLe.refl _
    | some v =>
      simp only
      split
      · exact WLe.refl _
      · simp only [bind_wraps]
        exact grow_of_withW (fun w => w.ldexp v i) (fun w W => World.ldexp_withW w W v i) m.w
  | lcst f args kwargs =>
    simp only [Machine.step]
    cases evalArgs (Arg.eval m.env) args with
    | none => exact WLe.refl _
    | some a =>
      cases evalArgs (Arg.evalKw m.env) kwargs with
      | none => exact WLe.refl _
      | some k =>
        simp only [bind_wraps]
        exact WLe.refl _
  | copy x =>
    simp only [Machine.step]
    cases x.evalUnc m.env with
    | none => exact WLe.refl _
    | some u => exact uf (fun w => w.copy u) (fun w W => World.copy_withW w W u)
  | deepcopy x =>
    simp only [Machine.step]
    cases x.evalUnc m.env with
    | none => exact WLe.refl _
    | some u => exact uf (fun w => w.deepcopy u) (fun w W => World.deepcopy_withW w W u)
  | pickle xs =>
    simp only [Machine.step]
    cases evalArgs (Arg.evalUnc m.env) xs with
    | none => exact WLe.refl _
    | some us =>
      have h := grow_of_withW (fun w => w.pickle us) (fun w W => World.pickle_withW w W us) m.w
      simp only at h ⊢
      rcases hc : m.w.pickle us with ⟨w1, r⟩
      rw [hc] at h
      cases r <;> exact h
  | «variable» x v =>
    simp only [Machine.step]
    cases x.evalUnc m.env with
    | none => exact WLe.refl _
    | some u => exact uf (fun w => w.variable u v) (fun w W => World.variable_withW w W u v)
  | setStd x s => exact read_grow m x _ (fun w u => grow_of_withW (fun w => w.assignStd u s) (fun w W => World.assignStd_withW w W u s) w)
  | nominal x =>
    simp only [Machine.step]
    cases x.eval m.env <;> exact WLe.refl _
  | stdDev x =>
    simp only [Machine.step]
    cases x.eval m.env with
    | none => exact WLe.refl _
    | some v =>
      have h := grow_of_withW (fun w => w.stdDevOf v) (fun w W => World.stdDevOf_withW w W v) m.w
      simp only at h ⊢
      rcases hc : m.w.stdDevOf v with ⟨w1, r⟩
      rw [hc] at h
      cases r <;> exact h
  | s x => exact read_grow m x _ (fun w u => grow_of_withW (fun w => w.affStdDev u) (fun w W => World.affStdDev_withW w W u) w)
  | derivatives x =>
    exact read_grow m x _ (fun w u => grow_of_withW (fun w => w.derivatives u) (fun w W => World.derivatives_withW w W u) w)
  | errorComponents x =>
    exact read_grow m x _ (fun w u => grow_of_withW (fun w => w.errorComponents u) (fun w W => World.errorComponents_withW w W u) w)
  | stdScore x value =>
    exact read_grow m x _ (fun w u => grow_of_withW (fun w => w.stdScore u value) (fun w W => World.stdScore_withW w W u value) w)
  | covarianceMatrix xs =>
    simp only [Machine.step]
    cases evalArgs (Arg.evalUnc m.env) xs with
    | none => exact WLe.refl _
    | some us =>
      have h := grow_of_withW (fun w => w.covarianceMatrix us) (fun w W => World.covarianceMatrix_withW w W us) m.w
      simp only at h ⊢
      rcases hc : m.w.covarianceMatrix us with ⟨w1, r⟩
      rw [hc] at h
      cases r <;> exact h
  | compare op x y =>
    simp only [Machine.step]
    cases x.eval m.env with
    | none => exact WLe.refl _
    | some a =>
      cases y.eval m.env with
      | none => exact WLe.refl _
      | some b =>
        simp only
        split
        · have h := compare_grow m.w op a b
          rcases hc : m.w.compare op a b with ⟨w1, r⟩
          rw [hc] at h
          cases r <;> exact h
        · exact WLe.refl _
  | toBool x => exact read_grow m x _ (fun w u => toBool_grow w _ u)
  | tag x => exact read_grow m x _ (fun w u => grow_of_withW (fun w => w.tag u) (fun w W => World.tag_withW w W u) w)

theorem run_grow (m : Machine F) (cs : List (Cmd F)) : WLe m.w.wraps (m.run cs).1.w.wraps := by
  induction cs generalizing m with
  | nil => exact WLe.refl _
  | cons c cs ih => exact (step_grow m c).trans (ih (m.step c).1)

end

end Unc
