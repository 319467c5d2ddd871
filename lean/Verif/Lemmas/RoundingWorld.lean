import Verif.Lemmas.HSteps
import Verif.Lemmas.Machine
import Verif.Lemmas.Rounding

/-
The operations of the model with rounded floats, related to the exact chain rule.
-/

namespace Unc

set_option linter.unusedSectionVars false
set_option autoImplicit false

section floats
variable {F : Type} [PyFloat F] [Rounded F]

/-! ### Creation of objects -/

/-- Extension of the derivatives to a new object. -/
def rextend (g : NodeId → Grad) (n : NodeId) (l : Grad) : NodeId → Grad :=
  fun i => if i = n then l else g i

theorem rextend_lt {g : NodeId → Grad} {n : NodeId} {l : Grad} {i : NodeId} (h : i < n) :
    rextend g n l i = g i := by
  simp only [rextend]; rw [if_neg (by omega)]

theorem rextend_self {g : NodeId → Grad} {n : NodeId} {l : Grad} : rextend g n l n = l := by
  simp [rextend]

theorem gradItems_congr {g g' : NodeId → Grad} {i : NodeId} {ts : List (Item F)}
    (hb : ItemsBelow i ts) (h : ∀ j, j < i → g' j = g j) : gradItems g' ts = gradItems g ts := by
  induction ts with
  | nil => rfl
  | cons t ts ih =>
    obtain ⟨c, j, rfl, hj⟩ := hb t (by simp)
    have hb' : ItemsBelow i ts := fun t ht => hb t (by simp [ht])
    simp only [gradItems, ih hb', h j hj]

theorem gradItems_ok {g : NodeId → Grad} (hg : ∀ i, (g i).OK) (ts : List (Item F)) :
    (gradItems g ts).OK := by
  induction ts with
  | nil => exact Grad.OK.zero
  | cons t ts ih =>
    cases t with
    | junk => exact ih
    | pair c j => exact ((hg j).smul c).add ih

theorem RCell_congr {g g' : NodeId → Grad} {i : NodeId} {lc : LC F}
    (h : ∀ j, j ≤ i → g' j = g j) (hc : RCell g i lc) : RCell g' i lc := by
  cases lc with
  | dict d => exact ⟨hc.1, by rw [h i (Nat.le_refl _)]; exact hc.2⟩
  | terms ts =>
    exact ⟨hc.1, by
      rw [gradItems_congr hc.1 (fun j hj => h j (Nat.le_of_lt hj)), h i (Nat.le_refl _)]
      exact hc.2⟩

theorem RDenotes.alloc {h : Heap F} {g : NodeId → Grad} (hd : RDenotes h g) (lc : LC F) (l : Grad)
    (hl : l.OK) (hc : RCell (rextend g h.length l) h.length lc) :
    RDenotes (h ++ [lc]) (rextend g h.length l) := by
  refine ⟨?_, ?_⟩
  · intro i lc' hi
    by_cases hlt : i < h.length
    · rw [List.getElem?_append_left hlt] at hi
      exact RCell_congr (fun j hj => rextend_lt (by omega)) (hd.cell i lc' hi)
    · have hlen : i < (h ++ [lc]).length := by
        rw [List.getElem?_eq_some_iff] at hi; exact hi.1
      have : i = h.length := by simp at hlen; omega
      subst this
      simp at hi
      subst hi
      exact hc
  · intro i
    simp only [rextend]
    split
    · exact hl
    · exact hd.ok i

theorem RDenotes.allocTerms {h : Heap F} {g : NodeId → Grad} (hd : RDenotes h g)
    {ts : List (Item F)} (hb : ItemsBelow h.length ts) :
    RDenotes (h ++ [.terms ts]) (rextend g h.length (gradItems g ts)) := by
  refine hd.alloc _ _ (gradItems_ok hd.ok ts) ⟨hb, ?_⟩
  rw [rextend_self]
  exact gradItems_congr hb (fun j hj => rextend_lt hj)

theorem Grad.ofDict_apply (d : Derivs F) (hd : KeysNodup d) (v : VarId) :
    Grad.ofDict d v = (d.lookup v).map (fun x => Info.smul x
      { exact := 1, mag := 1, scale := 1, depth := 0, uses := 1, fin := True }) := by
  induction d with
  | nil => rfl
  | cons p d ih =>
    obtain ⟨u, x⟩ := p
    have hn' : KeysNodup d := (List.nodup_cons.mp hd).2
    have hu : u ∉ d.map Prod.fst := (List.nodup_cons.mp hd).1
    have e : Grad.ofDict ((u, x) :: d) v =
        infoAdd ((Grad.single u v).map (Info.smul x)) (Grad.ofDict d v) := rfl
    rw [e, ih hn', lookup_cons]
    by_cases h : v = u
    · subst h
      rw [lookup_eq_none_of_not_mem hu]
      simp [Grad.single, infoAdd]
    · simp [Grad.single, h, infoAdd]

theorem DictOK.isSome {x : Option F} {I : Option Info} (h : DictOK x I) : x.isSome = I.isSome := by
  cases x <;> cases I <;> simp_all [DictOK]

theorem DictOK.ofDict {d : Derivs F} (hd : KeysNodup d) (v : VarId) :
    DictOK (d.lookup v) (Grad.ofDict d v) := by
  rw [Grad.ofDict_apply d hd]
  cases d.lookup v with
  | none => trivial
  | some x =>
    have := (Near.exact x).mono (n' := 1) (k' := 1) (by simp) (by simp)
    simpa [DictOK, Info.smul] using this

theorem DictOK.single (u v : VarId) : DictOK ([(u, (1 : F))].lookup v) (Grad.single u v) := by
  rw [lookup_cons]
  by_cases h : v = u
  · subst h
    have := Near.one' (F := F)
    simpa [DictOK, Grad.single] using this
  · simp [Grad.single, h, DictOK]

theorem Grad.OK.ofDict (d : Derivs F) : (Grad.ofDict d).OK := by
  refine Grad.OK.comb ?_
  intro p hp
  obtain ⟨q, -, rfl⟩ := List.mem_map.mp hp
  exact Grad.OK.single _

theorem RDenotes.allocDict {h : Heap F} {g : NodeId → Grad} (hd : RDenotes h g) {d : Derivs F}
    (hn : KeysNodup d) : RDenotes (h ++ [.dict d]) (rextend g h.length (Grad.ofDict d)) := by
  refine hd.alloc _ _ (Grad.OK.ofDict d) ⟨hn, fun v => ?_⟩
  rw [rextend_self]
  exact DictOK.ofDict hn v

/-- Reading and creating objects keeps what the existing objects represent. -/
theorem HSteps.rounded {h h' : Heap F} (hs : HSteps h h') {g : NodeId → Grad} (hd : RDenotes h g) :
    ∃ g', RDenotes h' g' ∧ h.length ≤ h'.length ∧ ∀ i, i < h.length → g' i = g i := by
  induction hs with
  | refl => exact ⟨g, hd, Nat.le_refl _, fun _ _ => rfl⟩
  | read i _ ih =>
    obtain ⟨g', a1, a2, a3⟩ := ih
    obtain ⟨b1, b2⟩ := a1.read i
    exact ⟨g', b1, by omega, a3⟩
  | alloc lc _ ht hdict ih =>
    obtain ⟨g', a1, a2, a3⟩ := ih
    cases lc with
    | dict d =>
      refine ⟨_, a1.allocDict (hdict d rfl), by simp; omega, fun i hi => ?_⟩
      rw [rextend_lt (by omega), a3 i hi]
    | terms ts =>
      refine ⟨_, a1.allocTerms (ht ts rfl), by simp; omega, fun i hi => ?_⟩
      rw [rextend_lt (by omega), a3 i hi]

end floats

section ops
variable {F : Type} [PyOps F] [Rounded F]

/-! ### Invariant -/

structure RndInv (w : World F) (g : NodeId → Grad) : Prop where
  shape : Shape w
  ops : HasOps w
  den : RDenotes w.nodes g
  vlin : ∀ (v : VarId) (cell : VarCell F), w.vars[v]? = some cell → g cell.lin = Grad.single v

def UF.rabs (g : NodeId → Grad) (u : UF F) : RQ F := { nom := u.nom, grad := g u.lin, var := u.var }

def Val.rabs (g : NodeId → Grad) : Val F → RVal F
  | .unc u => .unc (u.rabs g)
  | .plain v => .plain v

theorem Val.rabs_unc (g : NodeId → Grad) (u : UF F) : Val.rabs g (.unc u) = .unc (u.rabs g) := rfl

theorem Val.rabs_nominal (g : NodeId → Grad) (v : Val F) : (v.rabs g).nominal = v.nominal := by
  cases v <;> rfl

theorem Val.rabs_isUnc (g : NodeId → Grad) (v : Val F) : (v.rabs g).isUnc = v.isUnc := by
  cases v <;> rfl

/-- Evolution that keeps the variables, and what the objects represent. -/
structure REv (w : World F) (g : NodeId → Grad) (w' : World F) (g' : NodeId → Grad) : Prop where
  inv : RndInv w' g'
  reads : Reads w w'
  agree : ∀ i, i < w.nodes.length → g' i = g i

theorem REv.refl {w : World F} {g : NodeId → Grad} (h : RndInv w g) : REv w g w g :=
  ⟨h, Reads.refl h.shape, fun _ _ => rfl⟩

theorem REv.trans {w w' w'' : World F} {g g' g'' : NodeId → Grad} (h : REv w g w' g')
    (h' : REv w' g' w'' g'') : REv w g w'' g'' :=
  ⟨h'.inv, h.reads.trans h'.reads,
   fun i hi => (h'.agree i (Nat.lt_of_lt_of_le hi h.reads.len)).trans (h.agree i hi)⟩

theorem Val.rabs_agree {w : World F} {g g' : NodeId → Grad}
    (h : ∀ i, i < w.nodes.length → g' i = g i) {v : Val F} (hv : v.Valid w) :
    v.rabs g' = v.rabs g := by
  cases v with
  | plain _ => rfl
  | unc u => simp only [Val.rabs, UF.rabs]; rw [h _ hv.1]

theorem RndInv.ev {w w' : World F} {g g' : NodeId → Grad} (h : RndInv w g) (hr : Reads w w')
    (hd : RDenotes w'.nodes g') (ha : ∀ i, i < w.nodes.length → g' i = g i) : REv w g w' g' := by
  refine ⟨⟨hr.shape, h.ops.of_fns hr.fns, hd, ?_⟩, hr, ha⟩
  intro v cell hv
  rw [hr.vars] at hv
  rw [ha _ (List.getElem?_eq_some_iff.mp (h.shape.vars v cell hv)).1]
  exact h.vlin v cell hv

theorem RndInv.steps {w w' : World F} {g : NodeId → Grad} (h : RndInv w g) (hr : Reads w w')
    (hs : HSteps w.nodes w'.nodes) : ∃ g', REv w g w' g' := by
  obtain ⟨g', a1, -, a3⟩ := hs.rounded h.den
  exact ⟨g', h.ev hr a1 a3⟩

/-- Reading derivatives. -/
theorem World.derivatives_rounded {w : World F} {g : NodeId → Grad} (h : RndInv w g) {u : UF F}
    (hu : u.Valid w) :
    ∃ w' d, w.derivatives u = (w', .ok d) ∧ REv w g w' g ∧ KeysNodup d ∧
      (∀ v, DictOK (d.lookup v) (g u.lin v)) ∧ ∀ v ∈ d.map Prod.fst, v < w.vars.length := by
  obtain ⟨w', d, h1, h2, h3⟩ := World.derivatives_shape h.shape hu
  obtain ⟨d', a1, a2, a3, a4⟩ := readDerivs_rounded h.den u.lin hu.1
  have e : w.derivatives u = ({ w with nodes := w.nodes.set u.lin (.dict d') }, .ok d') := by
    simp [World.derivatives, a1]
  rw [e] at h1
  simp only [Prod.mk.injEq, Except.ok.injEq] at h1
  obtain ⟨rfl, rfl⟩ := h1
  exact ⟨_, _, e, h.ev h2 a4 (fun _ _ => rfl), a2, a3, h3⟩

theorem RndInv.keys {w : World F} {g : NodeId → Grad} (h : RndInv w g) {i : NodeId}
    (hi : i < w.nodes.length) {v : VarId} (hv : (g i v).isSome = true) : v < w.vars.length := by
  obtain ⟨w', d, -, -, -, h4, h5⟩ := World.derivatives_rounded h (u := ⟨0, i, none⟩)
    ⟨hi, fun v hv => by cases hv⟩
  have := (h4 v).isSome
  rw [hv] at this
  obtain ⟨x, hx⟩ := Option.isSome_iff_exists.mp this
  exact h5 v (mem_keys_of_lookup hx)

/-! ### Calls -/

theorem posTerms_rounded (w : World F) (g : NodeId → Grad) (av : List (PyVal F)) (kv : KwArgs F)
    (args : List (Val F)) (pos : Nat) (wf : Wrapped F) (acc : List (Item F)) (hwf : wf.OK)
    (hargs : ∀ a ∈ args, a.Valid w) (hacc : ItemsBelow w.nodes.length acc) :
    ∃ wf', wf'.OK ∧ wf'.df = wf.df ∧
      ((∃ l ts, exactPosTerms wf.df av kv pos (args.map (Val.rabs g)) = .ok l ∧
          posTerms av kv pos args wf acc = (wf', .ok ts) ∧ ItemsBelow w.nodes.length ts ∧
          gradItems g ts = Grad.add (gradItems g acc) (Grad.comb l)) ∨
       (∃ e, exactPosTerms wf.df av kv pos (args.map (Val.rabs g)) = .error e ∧
          posTerms av kv pos args wf acc = (wf', .error e))) := by
  induction args generalizing pos wf acc with
  | nil =>
    refine ⟨wf, hwf, rfl, Or.inl ⟨[], acc, rfl, rfl, hacc, ?_⟩⟩
    rw [Grad.add_comm]
    simp [Grad.comb]
  | cons a args ih =>
    have hargs' : ∀ a ∈ args, a.Valid w := fun b hb => hargs b (by simp [hb])
    cases a with
    | plain v => exact ih (pos + 1) wf acc hwf hargs' hacc
    | unc u =>
      have hu : u.Valid w := hargs (.unc u) (by simp)
      obtain ⟨wf1, h1, h2, h3⟩ := Wrapped.posDeriv_ok hwf pos
      simp only [posTerms, h1, List.map_cons, Val.rabs_unc, exactPosTerms]
      cases hd : wf.df.specPos pos av kv with
      | error e => exact ⟨wf1, h2, h3, Or.inr ⟨e, rfl, by simp⟩⟩
      | ok c =>
        have hacc' : ItemsBelow w.nodes.length (Item.pair c u.lin :: acc) := by
          intro t ht
          rcases List.mem_cons.mp ht with h | h
          · exact ⟨c, u.lin, h, hu.1⟩
          · exact hacc t h
        obtain ⟨wf2, k1, k2, k3⟩ := ih (pos + 1) wf1 (.pair c u.lin :: acc) h2 hargs' hacc'
        refine ⟨wf2, k1, k2.trans h3, ?_⟩
        rw [h3] at k3
        rcases k3 with ⟨l, ts, a1, a2, a3, a4⟩ | ⟨e, a1, a2⟩
        · refine Or.inl ⟨(c, g u.lin) :: l, ts, ?_, a2, a3, ?_⟩
          · simp only [a1]; rfl
          · rw [a4]
            simp only [gradItems, Grad.comb]
            rw [Grad.add_comm (Grad.smul c (g u.lin)) (gradItems g acc), Grad.add_assoc]
        · exact Or.inr ⟨e, by simp only [a1], a2⟩

theorem kwTerms_rounded (w : World F) (g : NodeId → Grad) (av : List (PyVal F)) (kv : KwArgs F)
    (kwargs : List (String × Val F)) (wf : Wrapped F) (acc : List (Item F)) (hwf : wf.OK)
    (hargs : ∀ p ∈ kwargs, p.2.Valid w) (hacc : ItemsBelow w.nodes.length acc) :
    ∃ wf', wf'.OK ∧ wf'.df = wf.df ∧
      ((∃ l ts, exactKwTerms wf.df av kv (kwargs.map (fun p => (p.1, p.2.rabs g))) = .ok l ∧
          kwTerms av kv kwargs wf acc = (wf', .ok ts) ∧ ItemsBelow w.nodes.length ts ∧
          gradItems g ts = Grad.add (gradItems g acc) (Grad.comb l)) ∨
       (∃ e, exactKwTerms wf.df av kv (kwargs.map (fun p => (p.1, p.2.rabs g))) = .error e ∧
          kwTerms av kv kwargs wf acc = (wf', .error e))) := by
  induction kwargs generalizing wf acc with
  | nil =>
    refine ⟨wf, hwf, rfl, Or.inl ⟨[], acc, rfl, rfl, hacc, ?_⟩⟩
    rw [Grad.add_comm]
    simp [Grad.comb]
  | cons p kwargs ih =>
    obtain ⟨name, a⟩ := p
    have hargs' : ∀ p ∈ kwargs, p.2.Valid w := fun b hb => hargs b (by simp [hb])
    cases a with
    | plain v => exact ih wf acc hwf hargs' hacc
    | unc u =>
      have hu : u.Valid w := hargs (name, .unc u) (by simp)
      obtain ⟨wf1, h1, h2, h3⟩ := Wrapped.kwDeriv_ok hwf name
      simp only [kwTerms, h1, List.map_cons, Val.rabs_unc, exactKwTerms]
      cases hd : wf.df.specKw name av kv with
      | error e => exact ⟨wf1, h2, h3, Or.inr ⟨e, rfl, by simp⟩⟩
      | ok c =>
        have hacc' : ItemsBelow w.nodes.length (Item.pair c u.lin :: acc) := by
          intro t ht
          rcases List.mem_cons.mp ht with h | h
          · exact ⟨c, u.lin, h, hu.1⟩
          · exact hacc t h
        obtain ⟨wf2, k1, k2, k3⟩ := ih wf1 (.pair c u.lin :: acc) h2 hargs' hacc'
        refine ⟨wf2, k1, k2.trans h3, ?_⟩
        rw [h3] at k3
        rcases k3 with ⟨l, ts, a1, a2, a3, a4⟩ | ⟨e, a1, a2⟩
        · refine Or.inl ⟨(c, g u.lin) :: l, ts, ?_, a2, a3, ?_⟩
          · simp only [a1]; rfl
          · rw [a4]
            simp only [gradItems, Grad.comb]
            rw [Grad.add_comm (Grad.smul c (g u.lin)) (gradItems g acc), Grad.add_assoc]
        · exact Or.inr ⟨e, by simp only [a1], a2⟩

theorem RndInv.setWrap {w : World F} {g : NodeId → Grad} (h : RndInv w g) {fid : Nat}
    {wf wf' : Wrapped F} (hf : w.wraps[fid]? = some wf) (hok : wf'.OK) (hdf : wf'.df = wf.df) :
    REv w g { w with wraps := w.wraps.set fid wf' } g :=
  h.ev (h.shape.setWrap hf hok hdf) h.den (fun _ _ => rfl)

theorem RndInv.allocTerms {w : World F} {g : NodeId → Grad} (h : RndInv w g) {ts : List (Item F)}
    (hb : ItemsBelow w.nodes.length ts) :
    REv w g (w.alloc (.terms ts)).1 (rextend g w.nodes.length (gradItems g ts)) :=
  h.ev (h.shape.alloc (.terms ts) (fun d hd => by cases hd) (fun ts' hts => by cases hts; exact hb))
    (h.den.allocTerms hb) (fun i hi => rextend_lt hi)

/-- Result of an operation that returns a Python value. -/
def RRes (w' : World F) (g' : NodeId → Grad) (r : PyRes (Val F)) (sr : PyRes (RVal F)) : Prop :=
  r.map (Val.rabs g') = sr ∧ ∀ v, r = .ok v → v.Valid w'

theorem World.call_rounded {w : World F} {g : NodeId → Grad} (h : RndInv w g) (fid : Nat)
    (wf : Wrapped F) (hf : w.wraps[fid]? = some wf) (args : List (Val F))
    (kwargs : List (String × Val F)) (ha : ∀ a ∈ args, a.Valid w) (hk : ∀ p ∈ kwargs, p.2.Valid w) :
    ∃ w' g' r, w.call fid args kwargs = (w', r) ∧ REv w g w' g' ∧
      RRes w' g' r (exactCall wf.df (args.map (Val.rabs g))
        (kwargs.map (fun p => (p.1, p.2.rabs g)))) := by
  have hwf := h.shape.wraps fid wf hf
  have hav : (args.map (Val.rabs g)).map RVal.nominal = args.map Val.nominal := by
    rw [List.map_map]; apply List.map_congr_left; intro a _; exact Val.rabs_nominal g a
  have hkv : (kwargs.map (fun p => (p.1, p.2.rabs g))).map (fun p => (p.1, p.2.nominal)) =
      kwargs.map (fun p => (p.1, p.2.nominal)) := by
    rw [List.map_map]; apply List.map_congr_left; intro a _
    simp [Val.rabs_nominal]
  have hall : ((args.map (Val.rabs g)).all (fun a => !a.isUnc) &&
      (kwargs.map (fun p => (p.1, p.2.rabs g))).all (fun p => !p.2.isUnc)) =
      (args.all (fun a => !a.isUnc) && kwargs.all (fun p => !p.2.isUnc)) := by
    simp only [List.all_map]
    congr 1
    · apply List.all_congr rfl; intro a; simp [Val.rabs_isUnc]
    · apply List.all_congr rfl; intro a; simp [Val.rabs_isUnc]
  unfold World.call exactCall
  simp only [hf, hav, hkv, hall, callTerms]
  by_cases hpl : (args.all (fun a => !a.isUnc) && kwargs.all (fun p => !p.2.isUnc)) = true
  · simp only [hpl, if_true]
    cases hfv : wf.df.f (args.map Val.nominal) (kwargs.map fun p => (p.1, p.2.nominal)) with
    | error e => exact ⟨_, g, _, rfl, h.setWrap hf hwf rfl, rfl, fun v hv => by cases hv⟩
    | ok v =>
      exact ⟨_, g, _, rfl, h.setWrap hf hwf rfl, rfl, fun v hv => by cases hv; trivial⟩
  · simp only [hpl, Bool.false_eq_true, if_false]
    cases hfv : wf.df.f (args.map Val.nominal) (kwargs.map fun p => (p.1, p.2.nominal)) with
    | error e => exact ⟨_, g, _, rfl, h.setWrap hf hwf rfl, rfl, fun v hv => by cases hv⟩
    | ok v =>
      cases hfl : v.floatLike with
      | false =>
        simp only [hfl, Bool.not_false, if_true]
        exact ⟨_, g, _, rfl, h.setWrap hf hwf rfl, rfl, fun v hv => by cases hv; trivial⟩
      | true =>
        simp only [hfl, Bool.not_true, Bool.false_eq_true, if_false]
        obtain ⟨wf1, a1, a2, a3⟩ := posTerms_rounded w g (args.map Val.nominal)
          (kwargs.map fun p => (p.1, p.2.nominal)) args 0 wf [] hwf ha
          (by intro t ht; cases ht)
        rcases a3 with ⟨l1, ts1, b1, b2, b3, b4⟩ | ⟨e, b1, b2⟩
        · simp only [b1, b2]
          obtain ⟨wf2, c1, c2, c3⟩ := kwTerms_rounded w g (args.map Val.nominal)
            (kwargs.map fun p => (p.1, p.2.nominal)) kwargs wf1 ts1 a1 hk b3
          rw [a2] at c3
          rcases c3 with ⟨l2, ts2, d1, d2, d3, d4⟩ | ⟨e, d1, d2⟩
          · simp only [d1, d2]
            cases hx : v.toFloat with
            | error e =>
              exact ⟨_, g, _, rfl, h.setWrap hf c1 (c2.trans a2), rfl, fun v hv => by cases hv⟩
            | ok x =>
              have hev := h.setWrap hf c1 (c2.trans a2)
              have hal := hev.inv.allocTerms (ts := ts2) d3
              refine ⟨_, rextend g w.nodes.length (gradItems g ts2), _, rfl, hev.trans hal, ?_, ?_⟩
              · have : gradItems g ts2 = Grad.comb (l1 ++ l2) := by
                  rw [d4, b4, Grad.comb_append]; simp [gradItems]
                simp [Except.map, Val.rabs, UF.rabs, World.alloc, rextend_self, this]
              · intro v hv
                cases hv
                exact ⟨by simp [World.alloc], fun v hv => by cases hv⟩
          · simp only [d1, d2]
            exact ⟨_, g, _, rfl, h.setWrap hf c1 (c2.trans a2), rfl, fun v hv => by cases hv⟩
        · simp only [b1, b2]
          exact ⟨_, g, _, rfl, h.setWrap hf a1 a2, rfl, fun v hv => by cases hv⟩

/-! ### Operators -/

theorem HasOps.wrap {w : World F} (h : HasOps w) {i : Nat} {df : WrapDef F}
    (hi : (opDefs (F := F))[i]? = some df) : ∃ wf, w.wraps[i]? = some wf ∧ wf.df = df := by
  have := h.fn hi
  cases hw : w.wraps[i]? with
  | none => rw [hw] at this; cases this
  | some wf => rw [hw] at this; exact ⟨wf, rfl, by simpa using this⟩

theorem World.unop_rounded {w : World F} {g : NodeId → Grad} (h : RndInv w g) (op : UnOp) {x : UF F}
    (hx : x.Valid w) :
    ∃ w' g' r, w.unop op x = (w', r) ∧ REv w g w' g' ∧
      RRes w' g' r (exactCall op.wrapDef [.unc (x.rabs g)] []) := by
  obtain ⟨wf, hwf, hdf⟩ := h.ops.wrap (show (opDefs (F := F))[op.id]? = some op.wrapDef by cases op <;> rfl)
  obtain ⟨w1, g1, r, a1, a2, a3⟩ := World.call_rounded h _ wf hwf [.unc x] []
    (by intro a ha; simp at ha; subst ha; exact hx) (by simp)
  exact ⟨w1, g1, r, a1, a2, by rw [hdf] at a3; exact a3⟩

theorem RRes.notImpl {w : World F} {g : NodeId → Grad} {r : PyRes (Val F)} {sr : PyRes (RVal F)}
    (h : RRes w g r sr) : r = .ok (.plain .notImpl) ↔ sr = .ok (.plain .notImpl) := by
  obtain ⟨h1, -⟩ := h
  rw [← h1]
  cases r with
  | error e => simp [Except.map]
  | ok v => cases v <;> simp [Except.map, Val.rabs]

theorem World.reflected_rounded {w : World F} {g : NodeId → Grad} (h : RndInv w g) (op : BinOp)
    {a b : Val F} (ha : a.Valid w) (hb : b.Valid w) :
    ∃ w' g' r, (match b with
      | .plain _ => (w, .error .typeError)
      | .unc _ =>
        match w.call op.rid [b, a] [] with
        | (w, .ok (.plain .notImpl)) => (w, .error .typeError)
        | r => r : World F × PyRes (Val F)) = (w', r) ∧ REv w g w' g' ∧
      RRes w' g' r (match b.rabs g with
        | .plain _ => .error .typeError
        | .unc _ =>
          match exactCall op.rwrapDef [b.rabs g, a.rabs g] [] with
          | .ok (.plain .notImpl) => .error .typeError
          | r => r) := by
  cases b with
  | plain v => exact ⟨w, g, _, rfl, REv.refl h, rfl, by intro v hv; cases hv⟩
  | unc y =>
    obtain ⟨wf, hwf, hdf⟩ := h.ops.wrap (show (opDefs (F := F))[op.rid]? = some op.rwrapDef by cases op <;> rfl)
    obtain ⟨w1, g1, r, a1, a2, a3⟩ := World.call_rounded h _ wf hwf [.unc y, a] []
      (by intro z hz; rcases List.mem_cons.mp hz with rfl | hz
          · exact hb
          · simp at hz; subst hz; exact ha) (by simp)
    rw [hdf] at a3
    simp only [List.map_cons, List.map_nil] at a3
    simp only [a1]
    by_cases hr : r = .ok (.plain .notImpl)
    · subst hr
      have := a3.notImpl.mp rfl
      simp only [Val.rabs_unc] at this ⊢
      rw [this]
      exact ⟨w1, g1, _, rfl, a2, rfl, by intro v hv; cases hv⟩
    · have hs : exactCall op.rwrapDef [Val.rabs g (.unc y), Val.rabs g a] [] ≠
          .ok (.plain .notImpl) := fun hc => hr (a3.notImpl.mpr hc)
      refine ⟨w1, g1, r, ?_, a2, ?_⟩
      · split
        · rename_i w2 heq
          exact absurd (congrArg Prod.snd heq) hr
        · rfl
      · simp only [Val.rabs_unc] at hs a3 ⊢
        cases hsc : exactCall op.rwrapDef [.unc (y.rabs g), a.rabs g] [] with
        | error e => rw [hsc] at a3; exact a3
        | ok v =>
          rw [hsc] at a3 hs
          cases v with
          | unc q => exact a3
          | plain v =>
            cases v with
            | notImpl => exact absurd rfl hs
            | flt _ => exact a3
            | cplx => exact a3
            | other _ => exact a3

theorem World.binop_rounded {w : World F} {g : NodeId → Grad} (h : RndInv w g) (op : BinOp)
    {a b : Val F} (ha : a.Valid w) (hb : b.Valid w) :
    ∃ w' g' r, w.binop op a b = (w', r) ∧ REv w g w' g' ∧
      RRes w' g' r (exactBinop op (a.rabs g) (b.rabs g)) := by
  cases a with
  | plain v => exact World.reflected_rounded h op ha hb
  | unc x =>
    obtain ⟨wf, hwf, hdf⟩ := h.ops.wrap (show (opDefs (F := F))[op.id]? = some op.wrapDef by cases op <;> rfl)
    obtain ⟨w1, g1, r, a1, a2, a3⟩ := World.call_rounded h _ wf hwf [.unc x, b] []
      (by intro z hz; rcases List.mem_cons.mp hz with rfl | hz
          · exact ha
          · simp at hz; subst hz; exact hb) (by simp)
    rw [hdf] at a3
    simp only [List.map_cons, List.map_nil] at a3
    simp only [World.binop, a1, exactBinop, Val.rabs_unc]
    by_cases hr : r = .ok (.plain .notImpl)
    · subst hr
      have := a3.notImpl.mp rfl
      simp only [Val.rabs_unc] at this
      simp only [this]
      obtain ⟨w2, g2, r2, b1, b2, b3⟩ := World.reflected_rounded a2.inv op
        (Val.Valid.grows a2.reads.grows ha) (Val.Valid.grows a2.reads.grows hb)
      rw [Val.rabs_agree a2.agree ha, Val.rabs_agree a2.agree hb] at b3
      exact ⟨w2, g2, r2, b1, a2.trans b2, b3⟩
    · have hs : exactCall op.wrapDef [Val.rabs g (.unc x), Val.rabs g b] [] ≠
          .ok (.plain .notImpl) := fun hc => hr (a3.notImpl.mpr hc)
      refine ⟨w1, g1, r, ?_, a2, ?_⟩
      · split
        · rename_i w2 heq
          exact absurd (congrArg Prod.snd heq) hr
        · rfl
      · simp only [Val.rabs_unc] at hs a3
        split
        · rename_i heq
          exact absurd heq hs
        · exact a3

end ops

end Unc
