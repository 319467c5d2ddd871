import Verif.Lemmas.LinComb
import Verif.Lemmas.Wrap
import Verif.Spec.World

/-
The operations of the model, related to the specification through an invariant.
-/

namespace Unc

set_option linter.unusedSectionVars false
set_option autoImplicit false

variable {F : Type} [PyOps F]

/-- What the specification sees of the variables. -/
def VarCell.abs (c : VarCell F) : SVar F := { nom := c.nom, std := c.std, tag := c.tag }

def World.svars (w : World F) : List (SVar F) := w.vars.map VarCell.abs

/-- Invariant of the program state; `g` gives the gradient represented by each heap object. -/
structure Inv (w : World F) (g : NodeId → Lin F) : Prop where
  den : Denotes w.nodes g
  keys : ∀ i, i < w.nodes.length → ∀ v x, g i v = some x → v < w.vars.length
  vars : ∀ (v : VarId) (cell : VarCell F), w.vars[v]? = some cell → cell.lin < w.nodes.length ∧ g cell.lin = Lin.single v
  vdict : ∀ (v : VarId) (cell : VarCell F), w.vars[v]? = some cell →
    ∃ d, w.nodes[cell.lin]? = some (.dict d)
  std : ∀ (v : VarId) (cell : VarCell F), w.vars[v]? = some cell → specBadStd cell.std = false
  wraps : ∀ (fid : Nat) (wf : Wrapped F), w.wraps[fid]? = some wf → wf.OK
  ops : ∀ i, i < (opDefs (F := F)).length → (w.wraps[i]?).map Wrapped.df = (opDefs (F := F))[i]?

/-- The object exists. -/
def UF.OK (w : World F) (u : UF F) : Prop :=
  u.lin < w.nodes.length ∧
  ∀ v, u.var = some v → ∃ cell, w.vars[v]? = some cell ∧ cell.lin = u.lin ∧ cell.nom = u.nom

def Val.OK (w : World F) : Val F → Prop
  | .unc u => u.OK w
  | .plain _ => True

/-- What the specification sees of an object. -/
def UF.abs (g : NodeId → Lin F) (u : UF F) : SQ F := { nom := u.nom, grad := g u.lin, var := u.var }

def Val.abs (g : NodeId → Lin F) : Val F → SVal F
  | .unc u => .unc (u.abs g)
  | .plain v => .plain v

/-- Evolution of the state that does not touch the variables: objects may be created, caches and
representations may change, but existing objects keep their meaning. -/
structure Evolves (w : World F) (g : NodeId → Lin F) (w' : World F) (g' : NodeId → Lin F) :
    Prop where
  inv : Inv w' g'
  len : w.nodes.length ≤ w'.nodes.length
  agree : ∀ i, i < w.nodes.length → g' i = g i
  fns : w'.wraps.map Wrapped.df = w.wraps.map Wrapped.df
  vars : w'.vars = w.vars

theorem Evolves.refl {w : World F} {g : NodeId → Lin F} (h : Inv w g) : Evolves w g w g :=
  ⟨h, Nat.le_refl _, fun _ _ => rfl, rfl, rfl⟩

theorem Evolves.trans {w w' w'' : World F} {g g' g'' : NodeId → Lin F}
    (h : Evolves w g w' g') (h' : Evolves w' g' w'' g'') : Evolves w g w'' g'' :=
  ⟨h'.inv, h.len.trans h'.len,
   fun i hi => (h'.agree i (Nat.lt_of_lt_of_le hi h.len)).trans (h.agree i hi),
   h'.fns.trans h.fns, h'.vars.trans h.vars⟩

theorem UF.OK.evolves {w w' : World F} {g g' : NodeId → Lin F} (he : Evolves w g w' g') {u : UF F}
    (h : u.OK w) : u.OK w' :=
  ⟨Nat.lt_of_lt_of_le h.1 he.len, fun v hv => by rw [he.vars]; exact h.2 v hv⟩

theorem UF.abs_evolves {w w' : World F} {g g' : NodeId → Lin F} (he : Evolves w g w' g') {u : UF F}
    (h : u.OK w) : u.abs g' = u.abs g := by
  simp only [UF.abs]; rw [he.agree _ h.1]

theorem svars_evolves {w w' : World F} {g g' : NodeId → Lin F} (he : Evolves w g w' g') :
    w'.svars = w.svars := by simp [World.svars, he.vars]

/-! ### Allocation -/

theorem linItems_congr {g g' : NodeId → Lin F} {i : NodeId} {ts : List (Item F)}
    (hb : ItemsBelow i ts) (h : ∀ j, j < i → g' j = g j) : linItems g' ts = linItems g ts := by
  induction ts with
  | nil => rfl
  | cons t ts ih =>
    obtain ⟨c, j, rfl, hj⟩ := hb t (by simp)
    have hb' : ItemsBelow i ts := fun t ht => hb t (by simp [ht])
    simp only [linItems, ih hb', h j hj]

theorem CellOK_congr {g g' : NodeId → Lin F} {i : NodeId} {lc : LC F}
    (h : ∀ j, j ≤ i → g' j = g j) (hc : CellOK g i lc) : CellOK g' i lc := by
  cases lc with
  | dict d => exact ⟨hc.1, by rw [h i (Nat.le_refl _)]; exact hc.2⟩
  | terms ts =>
    exact ⟨hc.1, by
      rw [linItems_congr hc.1 (fun j hj => h j (Nat.le_of_lt hj)), h i (Nat.le_refl _)]
      exact hc.2⟩

/-- Extension of the gradients to a new object. -/
def extend (g : NodeId → Lin F) (n : NodeId) (l : Lin F) : NodeId → Lin F :=
  fun i => if i = n then l else g i

theorem extend_lt {g : NodeId → Lin F} {n : NodeId} {l : Lin F} {i : NodeId} (h : i < n) :
    extend g n l i = g i := by
  simp only [extend]; rw [if_neg (by omega)]

theorem extend_self {g : NodeId → Lin F} {n : NodeId} {l : Lin F} : extend g n l n = l := by
  simp [extend]

theorem denotes_alloc {h : Heap F} {g : NodeId → Lin F} (hd : Denotes h g) (lc : LC F) (l : Lin F)
    (hc : CellOK (extend g h.length l) h.length lc) :
    Denotes (h ++ [lc]) (extend g h.length l) := by
  intro i lc' hi
  by_cases hlt : i < h.length
  · rw [List.getElem?_append_left hlt] at hi
    exact CellOK_congr (fun j hj => extend_lt (by omega)) (hd i lc' hi)
  · have hlen : i < (h ++ [lc]).length := by
      rw [List.getElem?_eq_some_iff] at hi; exact hi.1
    have : i = h.length := by simp at hlen; omega
    subst this
    simp at hi
    subst hi
    exact hc

theorem Inv.alloc {w : World F} {g : NodeId → Lin F} (h : Inv w g) (lc : LC F) (l : Lin F)
    (hc : CellOK (extend g w.nodes.length l) w.nodes.length lc)
    (hk : ∀ v x, l v = some x → v < w.vars.length) :
    Evolves w g (w.alloc lc).1 (extend g w.nodes.length l) := by
  refine ⟨⟨denotes_alloc h.den lc l hc, ?_, ?_, ?_, h.std, h.wraps, h.ops⟩, ?_, fun i hi => extend_lt hi,
    rfl, rfl⟩
  · intro i hi v x hx
    simp only [World.alloc, List.length_append, List.length_singleton] at hi
    by_cases hlt : i < w.nodes.length
    · rw [extend_lt hlt] at hx; exact h.keys i hlt v x hx
    · have : i = w.nodes.length := by omega
      subst this
      rw [extend_self] at hx
      exact hk v x hx
  · intro v cell hv
    obtain ⟨a, b⟩ := h.vars v cell hv
    refine ⟨?_, by rw [extend_lt a]; exact b⟩
    simp only [World.alloc, List.length_append, List.length_singleton]; omega
  · intro v cell hv
    obtain ⟨d, hd⟩ := h.vdict v cell hv
    exact ⟨d, by simp only [World.alloc]; rw [List.getElem?_append_left (h.vars v cell hv).1]; exact hd⟩
  · simp [World.alloc]

theorem linItems_keys {w : World F} {g : NodeId → Lin F} (h : Inv w g) (ts : List (Item F))
    (hts : ItemsBelow w.nodes.length ts) :
    ∀ v x, linItems g ts v = some x → v < w.vars.length := by
  induction ts with
  | nil => intro v x hx; cases hx
  | cons t ts ih =>
    obtain ⟨c, j, rfl, hj⟩ := hts t (by simp)
    have ih := ih (fun t ht => hts t (by simp [ht]))
    intro v x hx
    simp only [linItems, Lin.add, Lin.smul] at hx
    cases hg : g j v with
    | some y => exact h.keys j hj v y hg
    | none =>
      rw [hg] at hx
      simp at hx
      exact ih v x hx

/-! ### Reading derivatives -/

section exact
variable [ExactLin F]

theorem World.derivatives_spec {w : World F} {g : NodeId → Lin F} (h : Inv w g) {u : UF F}
    (hu : u.OK w) :
    ∃ w' d, w.derivatives u = (w', .ok d) ∧ Evolves w g w' g ∧ KeysNodup d ∧
      Lin.ofDict d = g u.lin := by
  obtain ⟨d, h1, h2, h3, h4⟩ := readDerivs_denotes w.nodes g h.den u.lin hu.1
  refine ⟨{ w with nodes := w.nodes.set u.lin (.dict d) }, d, ?_, ?_, h2, h3⟩
  · simp [World.derivatives, h1]
  · refine ⟨⟨h4, ?_, ?_, ?_, h.std, h.wraps, h.ops⟩, ?_, fun _ _ => rfl, rfl, rfl⟩
    · intro i hi; exact h.keys i (by simpa using hi)
    · intro v cell hv; simpa using h.vars v cell hv
    · intro v cell hv
      by_cases hi : u.lin = cell.lin
      · exact ⟨d, by rw [hi]; exact List.getElem?_set_self (h.vars v cell hv).1⟩
      · obtain ⟨d', hd'⟩ := h.vdict v cell hv
        exact ⟨d', by simp only []; rw [List.getElem?_set_ne hi]; exact hd'⟩
    · simp

/-! ### Sums over dictionaries -/

theorem sumVars_congr {ψ φ : VarId → F} {n : Nat} (h : ∀ v, v < n → ψ v = φ v) :
    sumVars ψ n = sumVars φ n := by
  induction n with
  | zero => rfl
  | succ n ih =>
    simp only [sumVars]
    rw [ih (fun v hv => h v (by omega)), h n (by omega)]

theorem sumVars_zero (n : Nat) : sumVars (fun _ => (0 : F)) n = 0 := by
  induction n with
  | zero => rfl
  | succ n ih => simp only [sumVars, ih, ExactLin.zero_add]

theorem sumVars_insert (ψ : VarId → F) (v : VarId) (a : F) (n : Nat) (hv : v < n)
    (h0 : ψ v = 0) :
    sumVars (fun u => if u = v then a else ψ u) n = a + sumVars ψ n := by
  induction n with
  | zero => omega
  | succ n ih =>
    simp only [sumVars]
    by_cases hvn : n = v
    · subst hvn
      rw [sumVars_congr (φ := ψ) (fun u hu => by rw [if_neg (by omega)])]
      rw [if_pos rfl, h0, add_zero', ExactLin.add_comm]
    · rw [ih (by omega), if_neg hvn, ExactLin.add_assoc]

/-- Sum of the elements of a list. -/
def sumList : List F → F
  | [] => 0
  | x :: xs => x + sumList xs

/-- A sum over the items of a dictionary is a sum over all the variables. -/
theorem sum_dict (φ : VarId → F → F) (d : Derivs F) (n : Nat) (hn : KeysNodup d)
    (hk : ∀ v ∈ d.map Prod.fst, v < n) :
    sumList (d.map (fun p => φ p.1 p.2)) =
      sumVars (fun v => match d.lookup v with | some x => φ v x | none => 0) n := by
  induction d with
  | nil =>
    simp only [List.map_nil, sumList]
    rw [sumVars_congr (φ := fun _ => 0) (fun v _ => by simp), sumVars_zero]
  | cons p d ih =>
    obtain ⟨u, x⟩ := p
    have hn' : KeysNodup d := (List.nodup_cons.mp hn).2
    have hu : u ∉ d.map Prod.fst := (List.nodup_cons.mp hn).1
    have hk' : ∀ v ∈ d.map Prod.fst, v < n := fun v hv => hk v (by
      simp only [List.map_cons, List.mem_cons]; exact Or.inr hv)
    have hun : u < n := hk u (by simp)
    simp only [List.map_cons, sumList, ih hn' hk']
    rw [← sumVars_insert _ u (φ u x) n hun (by rw [lookup_eq_none_of_not_mem hu])]
    apply sumVars_congr
    intro v hv
    rw [lookup_cons]
    by_cases h : v = u
    · subst h; simp
    · simp [h]

theorem sumSquares_eq (l : List F) (acc : F) :
    sumSquares l acc = .ok (acc + sumList (l.map (fun x => x * x))) := by
  induction l generalizing acc with
  | nil => simp [sumSquares, sumList, add_zero']
  | cons x l ih =>
    simp only [sumSquares, ExactLin.sq_eq, ih, List.map_cons, sumList, ExactLin.add_assoc]

/-! ### Error components and standard deviation -/

theorem errorLoop_spec (vars : List (VarCell F)) (d : Derivs F)
    (hk : ∀ v ∈ d.map Prod.fst, v < vars.length) :
    errorLoop vars d = .ok (d.map (fun p => (p.1,
      match vars[p.1]? with | some cell => specComponent p.2 cell.std | none => 0))) := by
  induction d with
  | nil => rfl
  | cons p d ih =>
    obtain ⟨v, x⟩ := p
    have hv : v < vars.length := hk v (by simp)
    have hk' : ∀ u ∈ d.map Prod.fst, u < vars.length := fun u hu => hk u (by
      simp only [List.map_cons, List.mem_cons]; exact Or.inr hu)
    have hg : vars[v]? = some vars[v] := List.getElem?_eq_getElem hv
    simp only [errorLoop, hg, ih hk', List.map_cons, specComponent]
    split <;> rfl

theorem lookup_map_snd (d : Derivs F) (φ : VarId → F → F) (v : VarId) :
    (d.map (fun p => (p.1, φ p.1 p.2))).lookup v = (d.lookup v).map (φ v) := by
  induction d with
  | nil => rfl
  | cons p d ih =>
    obtain ⟨u, x⟩ := p
    simp only [List.map_cons, lookup_cons, ih]
    by_cases h : v = u
    · subst h; simp
    · simp [h]

theorem keys_lt {w : World F} {g : NodeId → Lin F} (h : Inv w g) {u : UF F} (hu : u.OK w)
    {d : Derivs F} (hd : Lin.ofDict d = g u.lin) : ∀ v ∈ d.map Prod.fst, v < w.vars.length := by
  intro v hv
  have : d.lookup v ≠ none := by
    intro hn
    rw [List.lookup_eq_none_iff] at hn
    obtain ⟨p, hp, rfl⟩ := List.mem_map.mp hv
    have := hn p hp
    simp at this
  obtain ⟨x, hx⟩ := Option.ne_none_iff_exists'.mp this
  exact h.keys u.lin hu.1 v x (by rw [← hd]; exact hx)

theorem World.errorComponents_spec {w : World F} {g : NodeId → Lin F} (h : Inv w g) {u : UF F}
    (hu : u.OK w) :
    ∃ w' d, w.errorComponents u = (w', .ok d) ∧ Evolves w g w' g ∧ KeysNodup d ∧
      Lin.ofDict d = specErrorComponents w.svars (g u.lin) ∧
      sumList (d.map (fun p => p.2 * p.2)) = specVariance w.svars (g u.lin) := by
  obtain ⟨w', d, h1, h2, h3, h4⟩ := World.derivatives_spec h hu
  have hk := keys_lt h hu h4
  have hloop := errorLoop_spec w'.vars d (by rw [h2.vars]; exact hk)
  let φ : VarId → F → F := fun v x =>
    match w.vars[v]? with | some cell => specComponent x cell.std | none => 0
  refine ⟨w', d.map (fun p => (p.1, φ p.1 p.2)), ?_, h2, ?_, ?_, ?_⟩
  · simp only [World.errorComponents, h1, hloop]; simp only [h2.vars, φ]
  · simp only [KeysNodup, List.map_map]; exact h3
  · funext v
    simp only [Lin.ofDict, lookup_map_snd, specErrorComponents, ← h4, World.svars]
    cases hl : d.lookup v with
    | none => simp
    | some x =>
      have hv := hk v (mem_keys_of_lookup hl)
      have hg : w.vars[v]? = some w.vars[v] := List.getElem?_eq_getElem hv
      simp [φ, hg, VarCell.abs]
  · simp only [List.map_map]
    have := sum_dict (fun v x => φ v x * φ v x) d w.vars.length h3 hk
    have e : (List.map ((fun p => p.2 * p.2) ∘ fun p => (p.1, φ p.1 p.2)) d) =
        d.map (fun p => φ p.1 p.2 * φ p.1 p.2) := by
      apply List.map_congr_left; intro p _; rfl
    rw [e, this]
    simp only [specVariance, World.svars, List.length_map]
    apply sumVars_congr
    intro v hv
    have hg : w.vars[v]? = some w.vars[v] := List.getElem?_eq_getElem hv
    simp only [specVarianceTerm, ← h4, Lin.ofDict]
    cases hl : d.lookup v with
    | none => simp
    | some x => simp [φ, hg, VarCell.abs]

theorem World.affStdDev_spec {w : World F} {g : NodeId → Lin F} (h : Inv w g) {u : UF F}
    (hu : u.OK w) :
    ∃ w', w.affStdDev u = (w', specStd w.svars (g u.lin)) ∧ Evolves w g w' g := by
  obtain ⟨w', d, h1, h2, h3, h4, h5⟩ := World.errorComponents_spec h hu
  refine ⟨w', ?_, h2⟩
  simp only [World.affStdDev, h1, sumSquares_eq, ExactLin.zero_add, List.map_map]
  have e : (List.map ((fun x => x * x) ∘ Prod.snd) d) = d.map (fun p => p.2 * p.2) := by
    apply List.map_congr_left; intro p _; rfl
  rw [e, h5]; rfl

theorem World.stdDev_spec {w : World F} {g : NodeId → Lin F} (h : Inv w g) {u : UF F}
    (hu : u.OK w) :
    ∃ w', w.stdDev u = (w', specStdDev w.svars (u.abs g)) ∧ Evolves w g w' g := by
  unfold World.stdDev
  cases hv : u.var with
  | none =>
    obtain ⟨w', h1, h2⟩ := World.affStdDev_spec h hu
    exact ⟨w', by simp [h1, specStdDev, UF.abs, hv], h2⟩
  | some v =>
    obtain ⟨cell, h1, -, -⟩ := hu.2 v hv
    exact ⟨w, by simp [h1, specStdDev, UF.abs, hv, World.svars, VarCell.abs], Evolves.refl h⟩

/-! ### Calls -/

theorem linItems_append_singleton (g : NodeId → Lin F) (a : List (Item F)) (c : F) (j : NodeId) :
    linItems g (.pair c j :: a) = Lin.add (Lin.smul c (g j)) (linItems g a) := rfl

theorem Val.abs_unc (g : NodeId → Lin F) (u : UF F) : (Val.unc u).abs g = .unc (u.abs g) := rfl

theorem Val.abs_nominal (g : NodeId → Lin F) (v : Val F) : (v.abs g).nominal = v.nominal := by
  cases v <;> rfl

theorem Val.abs_isUnc (g : NodeId → Lin F) (v : Val F) : (v.abs g).isUnc = v.isUnc := by
  cases v <;> rfl

theorem posTerms_spec (w : World F) (g : NodeId → Lin F) (av : List (PyVal F)) (kv : KwArgs F)
    (args : List (Val F)) (pos : Nat) (wf : Wrapped F) (acc : List (Item F)) (hwf : wf.OK)
    (hargs : ∀ a ∈ args, a.OK w) (hacc : ItemsBelow w.nodes.length acc) :
    ∃ wf', wf'.OK ∧ wf'.df = wf.df ∧
      ((∃ l ts, specPosTerms wf.df av kv pos (args.map (Val.abs g)) = .ok l ∧
          posTerms av kv pos args wf acc = (wf', .ok ts) ∧ ItemsBelow w.nodes.length ts ∧
          linItems g ts = Lin.add (linItems g acc) (Lin.comb l)) ∨
       (∃ e, specPosTerms wf.df av kv pos (args.map (Val.abs g)) = .error e ∧
          posTerms av kv pos args wf acc = (wf', .error e))) := by
  induction args generalizing pos wf acc with
  | nil =>
    exact ⟨wf, hwf, rfl, Or.inl ⟨[], acc, rfl, rfl, hacc, by simp [Lin.comb]⟩⟩
  | cons a args ih =>
    have hargs' : ∀ a ∈ args, a.OK w := fun b hb => hargs b (by simp [hb])
    cases a with
    | plain v => exact ih (pos + 1) wf acc hwf hargs' hacc
    | unc u =>
      have hu : u.OK w := hargs (.unc u) (by simp)
      obtain ⟨wf1, h1, h2, h3⟩ := Wrapped.posDeriv_ok hwf pos
      simp only [posTerms, h1, List.map_cons, Val.abs_unc, specPosTerms]
      cases hd : wf.df.specPos pos av kv with
      | error e => exact ⟨wf1, h2, h3, Or.inr ⟨e, rfl, by simp⟩⟩
      | ok c =>
        have hacc' : ItemsBelow w.nodes.length (Item.pair c u.lin :: acc) := by
          intro t ht
          rcases List.mem_cons.mp ht with h | h
          · exact ⟨c, u.lin, h, hu.1⟩
          · exact hacc t h
        obtain ⟨wf2, k1, k2, k3⟩ := ih (pos + 1) wf1 (.pair c u.lin :: acc) h2 hargs' hacc'
        refine ⟨wf2, k1, k2.trans h3, ?_⟩
        rw [h3] at k3
        rcases k3 with ⟨l, ts, a1, a2, a3, a4⟩ | ⟨e, a1, a2⟩
        · refine Or.inl ⟨(c, g u.lin) :: l, ts, ?_, a2, a3, ?_⟩
          · simp only [a1]; rfl
          · rw [a4]
            simp only [linItems, Lin.comb]
            rw [Lin.add_comm (Lin.smul c (g u.lin)) (linItems g acc), Lin.add_assoc]
        · exact Or.inr ⟨e, by simp only [a1], a2⟩

theorem kwTerms_spec (w : World F) (g : NodeId → Lin F) (av : List (PyVal F)) (kv : KwArgs F)
    (kwargs : List (String × Val F)) (wf : Wrapped F) (acc : List (Item F)) (hwf : wf.OK)
    (hargs : ∀ p ∈ kwargs, p.2.OK w) (hacc : ItemsBelow w.nodes.length acc) :
    ∃ wf', wf'.OK ∧ wf'.df = wf.df ∧
      ((∃ l ts, specKwTerms wf.df av kv (kwargs.map (fun p => (p.1, p.2.abs g))) = .ok l ∧
          kwTerms av kv kwargs wf acc = (wf', .ok ts) ∧ ItemsBelow w.nodes.length ts ∧
          linItems g ts = Lin.add (linItems g acc) (Lin.comb l)) ∨
       (∃ e, specKwTerms wf.df av kv (kwargs.map (fun p => (p.1, p.2.abs g))) = .error e ∧
          kwTerms av kv kwargs wf acc = (wf', .error e))) := by
  induction kwargs generalizing wf acc with
  | nil =>
    exact ⟨wf, hwf, rfl, Or.inl ⟨[], acc, rfl, rfl, hacc, by simp [Lin.comb]⟩⟩
  | cons p kwargs ih =>
    obtain ⟨name, a⟩ := p
    have hargs' : ∀ p ∈ kwargs, p.2.OK w := fun b hb => hargs b (by simp [hb])
    cases a with
    | plain v => exact ih wf acc hwf hargs' hacc
    | unc u =>
      have hu : u.OK w := hargs (name, .unc u) (by simp)
      obtain ⟨wf1, h1, h2, h3⟩ := Wrapped.kwDeriv_ok hwf name
      simp only [kwTerms, h1, List.map_cons, Val.abs_unc, specKwTerms]
      cases hd : wf.df.specKw name av kv with
      | error e => exact ⟨wf1, h2, h3, Or.inr ⟨e, rfl, by simp⟩⟩
      | ok c =>
        have hacc' : ItemsBelow w.nodes.length (Item.pair c u.lin :: acc) := by
          intro t ht
          rcases List.mem_cons.mp ht with h | h
          · exact ⟨c, u.lin, h, hu.1⟩
          · exact hacc t h
        obtain ⟨wf2, k1, k2, k3⟩ := ih wf1 (.pair c u.lin :: acc) h2 hargs' hacc'
        refine ⟨wf2, k1, k2.trans h3, ?_⟩
        rw [h3] at k3
        rcases k3 with ⟨l, ts, a1, a2, a3, a4⟩ | ⟨e, a1, a2⟩
        · refine Or.inl ⟨(c, g u.lin) :: l, ts, ?_, a2, a3, ?_⟩
          · simp only [a1]; rfl
          · rw [a4]
            simp only [linItems, Lin.comb]
            rw [Lin.add_comm (Lin.smul c (g u.lin)) (linItems g acc), Lin.add_assoc]
        · exact Or.inr ⟨e, by simp only [a1], a2⟩

theorem Lin.comb_append (a b : List (F × Lin F)) :
    Lin.comb (a ++ b) = Lin.add (Lin.comb a) (Lin.comb b) := by
  induction a with
  | nil => simp [Lin.comb]
  | cons p a ih => simp [Lin.comb, ih, Lin.add_assoc]

/-- The state of a wrapped function is updated. -/
theorem Inv.setWrap {w : World F} {g : NodeId → Lin F} (h : Inv w g) {fid : Nat}
    {wf wf' : Wrapped F} (hf : w.wraps[fid]? = some wf) (hok : wf'.OK) (hdf : wf'.df = wf.df) :
    Evolves w g { w with wraps := w.wraps.set fid wf' } g := by
  have hlen : fid < w.wraps.length := by rw [List.getElem?_eq_some_iff] at hf; exact hf.1
  have hmap : (w.wraps.set fid wf').map Wrapped.df = w.wraps.map Wrapped.df := by
    apply List.ext_getElem?
    intro k
    simp only [List.getElem?_map]
    by_cases hk : fid = k
    · subst hk; rw [List.getElem?_set_self hlen, hf]; simp [hdf]
    · rw [List.getElem?_set_ne hk]
  refine ⟨⟨h.den, h.keys, h.vars, h.vdict, h.std, ?_, ?_⟩, Nat.le_refl _, fun _ _ => rfl, hmap, rfl⟩
  · intro k wk hk
    by_cases hkf : fid = k
    · subst hkf
      rw [List.getElem?_set_self hlen] at hk
      cases hk; exact hok
    · rw [List.getElem?_set_ne hkf] at hk
      exact h.wraps k wk hk
  · intro i hi
    rw [← h.ops i hi, ← List.getElem?_map, ← List.getElem?_map, hmap]

/-- Result of an operation that returns a Python value. -/
def ResOK (w' : World F) (g' : NodeId → Lin F) (r : PyRes (Val F)) (sr : PyRes (SVal F)) : Prop :=
  r.map (Val.abs g') = sr ∧ ∀ v, r = .ok v → v.OK w'

theorem World.call_spec {w : World F} {g : NodeId → Lin F} (h : Inv w g) (fid : Nat)
    (wf : Wrapped F) (hf : w.wraps[fid]? = some wf) (args : List (Val F))
    (kwargs : List (String × Val F)) (ha : ∀ a ∈ args, a.OK w) (hk : ∀ p ∈ kwargs, p.2.OK w) :
    ∃ w' g' r, w.call fid args kwargs = (w', r) ∧ Evolves w g w' g' ∧
      ResOK w' g' r (specCall wf.df (args.map (Val.abs g))
        (kwargs.map (fun p => (p.1, p.2.abs g)))) := by
  have hwf := h.wraps fid wf hf
  have hav : (args.map (Val.abs g)).map SVal.nominal = args.map Val.nominal := by
    rw [List.map_map]; apply List.map_congr_left; intro a _; exact Val.abs_nominal g a
  have hkv : (kwargs.map (fun p => (p.1, p.2.abs g))).map (fun p => (p.1, p.2.nominal)) =
      kwargs.map (fun p => (p.1, p.2.nominal)) := by
    rw [List.map_map]; apply List.map_congr_left; intro a _
    simp [Val.abs_nominal]
  have hall : ((args.map (Val.abs g)).all (fun a => !a.isUnc) &&
      (kwargs.map (fun p => (p.1, p.2.abs g))).all (fun p => !p.2.isUnc)) =
      (args.all (fun a => !a.isUnc) && kwargs.all (fun p => !p.2.isUnc)) := by
    simp only [List.all_map]
    congr 1
    · apply List.all_congr rfl; intro a; simp [Val.abs_isUnc]
    · apply List.all_congr rfl; intro a; simp [Val.abs_isUnc]
  unfold World.call specCall
  simp only [hf, hav, hkv, hall, callTerms]
  by_cases hpl : (args.all (fun a => !a.isUnc) && kwargs.all (fun p => !p.2.isUnc)) = true
  · simp only [hpl, if_true]
    cases hfv : wf.df.f (args.map Val.nominal) (kwargs.map fun p => (p.1, p.2.nominal)) with
    | error e => exact ⟨_, g, _, rfl, h.setWrap hf hwf rfl, rfl, fun v hv => by cases hv⟩
    | ok v =>
      exact ⟨_, g, _, rfl, h.setWrap hf hwf rfl, rfl, fun v hv => by cases hv; trivial⟩
  · simp only [hpl, Bool.false_eq_true, if_false]
    cases hfv : wf.df.f (args.map Val.nominal) (kwargs.map fun p => (p.1, p.2.nominal)) with
    | error e => exact ⟨_, g, _, rfl, h.setWrap hf hwf rfl, rfl, fun v hv => by cases hv⟩
    | ok v =>
      cases hfl : v.floatLike with
      | false =>
        simp only [hfl, Bool.not_false, if_true]
        exact ⟨_, g, _, rfl, h.setWrap hf hwf rfl, rfl, fun v hv => by cases hv; trivial⟩
      | true =>
        simp only [hfl, Bool.not_true, Bool.false_eq_true, if_false]
        obtain ⟨wf1, a1, a2, a3⟩ := posTerms_spec w g (args.map Val.nominal)
          (kwargs.map fun p => (p.1, p.2.nominal)) args 0 wf [] hwf ha
          (by intro t ht; cases ht)
        rcases a3 with ⟨l1, ts1, b1, b2, b3, b4⟩ | ⟨e, b1, b2⟩
        · simp only [b1, b2]
          obtain ⟨wf2, c1, c2, c3⟩ := kwTerms_spec w g (args.map Val.nominal)
            (kwargs.map fun p => (p.1, p.2.nominal)) kwargs wf1 ts1 a1 hk b3
          rw [a2] at c3
          rcases c3 with ⟨l2, ts2, d1, d2, d3, d4⟩ | ⟨e, d1, d2⟩
          · simp only [d1, d2]
            cases hx : v.toFloat with
            | error e =>
              exact ⟨_, g, _, rfl, h.setWrap hf c1 (c2.trans a2), rfl, fun v hv => by cases hv⟩
            | ok x =>
              have hev := h.setWrap hf c1 (c2.trans a2)
              have hcell : CellOK (extend g w.nodes.length (linItems g ts2)) w.nodes.length
                  (.terms ts2) := by
                refine ⟨d3, ?_⟩
                rw [extend_self]
                exact linItems_congr d3 (fun j hj => extend_lt hj)
              have hal := hev.inv.alloc (.terms ts2) (linItems g ts2) hcell
                (linItems_keys h ts2 d3)
              refine ⟨_, extend g w.nodes.length (linItems g ts2), _, rfl, hev.trans hal, ?_, ?_⟩
              · have : linItems g ts2 = Lin.comb (l1 ++ l2) := by
                  rw [d4, b4, Lin.comb_append]; simp [linItems]
                simp [Except.map, Val.abs, UF.abs, World.alloc, extend_self, this]
              · intro v hv
                cases hv
                exact ⟨by simp [World.alloc], fun v hv => by cases hv⟩
          · simp only [d1, d2]
            exact ⟨_, g, _, rfl, h.setWrap hf c1 (c2.trans a2), rfl, fun v hv => by cases hv⟩
        · simp only [b1, b2]
          exact ⟨_, g, _, rfl, h.setWrap hf a1 a2, rfl, fun v hv => by cases hv⟩

end exact

end Unc
