import Verif.Lemmas.SetStd
import Verif.Lemmas.Stays
import Verif.Props.C88_ReadOnce
import Verif.Spec.Concurrent

/-
Lemmas for C89: error components calculated while other threads run commands.
-/

namespace Unc

set_option autoImplicit false
set_option linter.unusedSectionVars false

section any
variable {F : Type} [PyMath F]

/-- The variables, after some events. -/
def varsAt (m : Machine F) (p : List (Event F)) : List (VarCell F) := (m.run (ran p)).1.w.vars

theorem varsAt_none (m : Machine F) (p : List (Event F)) : varsAt m (none :: p) = varsAt m p := rfl

theorem varsAt_some (m : Machine F) (c : Cmd F) (p : List (Event F)) :
    varsAt m (some c :: p) = varsAt (m.step c).1 p := rfl

/-- A component calculated with the standard deviations found at two moments. -/
def Seen2 (m : Machine F) (es : List (Event F)) (i e : VarId × F) : Prop :=
  ∃ p q, p <+: q ∧ q <+: es ∧ ∃ c c', (varsAt m p)[i.1]? = some c ∧ (varsAt m q)[i.1]? = some c' ∧
    e = (i.1, if PyFloat.eqb c.std 0 then 0 else PyFloat.abs (i.2 * c'.std))

theorem Seen2.none {m : Machine F} {es : List (Event F)} {i e : VarId × F} (h : Seen2 m es i e) :
    Seen2 m (none :: es) i e := by
  obtain ⟨p, q, h1, h2, c, c', h3, h4, h5⟩ := h
  exact ⟨Option.none :: p, Option.none :: q, List.cons_prefix_cons.mpr ⟨rfl, h1⟩, List.cons_prefix_cons.mpr ⟨rfl, h2⟩, c, c', h3, h4, h5⟩

theorem Seen2.some {m : Machine F} {a : Cmd F} {es : List (Event F)} {i e : VarId × F} (h : Seen2 (m.step a).1 es i e) :
    Seen2 m (some a :: es) i e := by
  obtain ⟨p, q, h1, h2, c, c', h3, h4, h5⟩ := h
  exact ⟨Option.some a :: p, Option.some a :: q, List.cons_prefix_cons.mpr ⟨rfl, h1⟩, List.cons_prefix_cons.mpr ⟨rfl, h2⟩, c, c', h3, h4, h5⟩

theorem forall₂_imp {α β : Type} {R S : α → β → Prop} (h : ∀ a b, R a b → S a b) {l : List α} {l' : List β}
    (hl : List.Forall₂ R l l') : List.Forall₂ S l l' := by
  induction hl with
  | nil => exact .nil
  | cons a _ ih => exact .cons (h _ _ a) ih

theorem forall₂_mem {α β : Type} {R S : α → β → Prop} {l : List α} {l' : List β}
    (hl : List.Forall₂ R l l') (h : ∀ a b, a ∈ l → R a b → S a b) : List.Forall₂ S l l' := by
  induction hl with
  | nil => exact .nil
  | cons a _ ih =>
    exact .cons (h _ _ (by simp) a) (ih fun a b ha => h a b (List.mem_cons_of_mem _ ha))

/-- If all the pairs but one satisfy `Q p` for all moments `p`, and the last one for some moment, then they all satisfy it for this one. -/
theorem forall₂_pick {T : Type} {R : VarId × F → VarId × F → Prop} {P : T → Prop} {Q : T → VarId × F → VarId × F → Prop} {w : VarId}
    (hP : ∃ p, P p) {d l : Derivs F} (h : List.Forall₂ R d l) (hn : KeysNodup d)
    (h1 : ∀ i e, i ∈ d → i.1 ≠ w → R i e → ∀ p, P p → Q p i e)
    (h2 : ∀ i e, i ∈ d → i.1 = w → R i e → ∃ p, P p ∧ Q p i e) : ∃ p, P p ∧ List.Forall₂ (Q p) d l := by
  induction h with
  | nil => obtain ⟨p, hp⟩ := hP; exact ⟨p, hp, .nil⟩
  | cons hab hl ih =>
    rename_i i e d l
    have hn' := List.nodup_cons.mp hn
    by_cases hi : i.1 = w
    · obtain ⟨p, hp, hq⟩ := h2 i e (by simp) hi hab
      refine ⟨p, hp, .cons hq (forall₂_mem hl fun j e' hj hr => h1 j e' (List.mem_cons_of_mem _ hj) ?_ hr p hp)⟩
      intro hjw
      exact hn'.1 (by rw [hi, ← hjw]; exact List.mem_map_of_mem hj)
    · obtain ⟨p, hp, hq⟩ := ih hn'.2 (fun j e hj => h1 j e (List.mem_cons_of_mem _ hj)) (fun j e hj => h2 j e (List.mem_cons_of_mem _ hj))
      exact ⟨p, hp, .cons (h1 i e (by simp) hi hab p hp) hq⟩

theorem run_done (m : Machine F) (r : PyRes (Derivs F)) (es : List (Event F)) : EPc.run m (.done r) es = .done r := by
  induction es generalizing m with
  | nil => rfl
  | cons e es ih => cases e <;> exact ih _

theorem run_seen (es : List (Event F)) : ∀ (m : Machine F) (todo found : Derivs F) (r : PyRes (Derivs F)),
    (∀ v ∈ todo.map Prod.fst, ∀ p, p <+: es → v < (varsAt m p).length) →
    ((EPc.run m (.check todo found) es).result = some r → ∃ l, r = .ok (found.reverse ++ l) ∧ List.Forall₂ (Seen2 m es) todo l) ∧
    (∀ v d, (∀ p, p <+: es → v < (varsAt m p).length) → (EPc.run m (.mult v d todo found) es).result = some r →
      ∃ e l, r = .ok (found.reverse ++ e :: l) ∧
        (∃ q, q <+: es ∧ ∃ c', (varsAt m q)[v]? = some c' ∧ e = (v, PyFloat.abs (d * c'.std))) ∧
        List.Forall₂ (Seen2 m es) todo l) := by
  induction es with
  | nil =>
    intro m todo found r hv
    exact ⟨fun h => by simp [EPc.run, EPc.result] at h, fun v d _ h => by simp [EPc.run, EPc.result] at h⟩
  | cons e es ih =>
    intro m todo found r hv
    cases e with
    | some a =>
      have hv' : ∀ v ∈ todo.map Prod.fst, ∀ p, p <+: es → v < (varsAt (m.step a).1 p).length :=
        fun v h p hp => hv v h (some a :: p) (List.cons_prefix_cons.mpr ⟨rfl, hp⟩)
      obtain ⟨h1, h2⟩ := ih (m.step a).1 todo found r hv'
      refine ⟨fun h => ?_, fun v d hd h => ?_⟩
      · obtain ⟨l, e1, e2⟩ := h1 h
        exact ⟨l, e1, forall₂_imp (fun _ _ => Seen2.some) e2⟩
      · obtain ⟨e, l, e1, ⟨q, hq, c', hc, he⟩, e2⟩ := h2 v d (fun p hp => hd (some a :: p) (List.cons_prefix_cons.mpr ⟨rfl, hp⟩)) h
        exact ⟨e, l, e1, ⟨some a :: q, List.cons_prefix_cons.mpr ⟨rfl, hq⟩, c', hc, he⟩,
          forall₂_imp (fun _ _ => Seen2.some) e2⟩
    | none =>
      have hlift : ∀ {v : VarId}, (∀ p, p <+: (none :: es : List (Event F)) → v < (varsAt m p).length) →
          ∀ p, p <+: es → v < (varsAt m p).length :=
        fun h p hp => h (none :: p) (List.cons_prefix_cons.mpr ⟨rfl, hp⟩)
      refine ⟨fun h => ?_, fun v d hd h => ?_⟩
      · cases todo with
        | nil =>
          simp only [EPc.run, EPc.step, run_done, EPc.result, Option.some.injEq] at h
          exact ⟨[], by rw [← h]; simp, .nil⟩
        | cons i todo =>
          obtain ⟨v, d⟩ := i
          have hlt : v < (varsAt m []).length := hv v (by simp) [] List.nil_prefix
          have hc : m.w.vars[v]? = some m.w.vars[v] := List.getElem?_eq_getElem hlt
          have hv' : ∀ w ∈ todo.map Prod.fst, ∀ p, p <+: es → w < (varsAt m p).length := fun w hw =>
            hlift (hv w (by simp only [List.map_cons, List.mem_cons]; exact Or.inr hw))
          simp only [EPc.run, EPc.step, hc] at h
          split at h
          · rename_i hz
            obtain ⟨l, e1, e2⟩ := (ih m todo ((v, 0) :: found) r hv').1 h
            refine ⟨(v, 0) :: l, by simpa using e1, .cons ?_ (forall₂_imp (fun _ _ => Seen2.none) e2)⟩
            exact ⟨[], [], List.nil_prefix, List.nil_prefix, _, _, hc, hc, by simp only [hz, if_true]⟩
          · rename_i hz
            obtain ⟨e, l, e1, ⟨q, hq, c', hc', he⟩, e2⟩ := (ih m todo found r hv').2 v d (hlift (hv v (by simp))) h
            refine ⟨e :: l, e1, .cons ?_ (forall₂_imp (fun _ _ => Seen2.none) e2)⟩
            exact ⟨[], none :: q, List.nil_prefix, List.cons_prefix_cons.mpr ⟨rfl, hq⟩, _, c', hc, hc', by
              simp only [hz]; exact he⟩
      · have hlt : v < (varsAt m []).length := hd [] List.nil_prefix
        have hc : m.w.vars[v]? = some m.w.vars[v] := List.getElem?_eq_getElem hlt
        simp only [EPc.run, EPc.step, hc] at h
        obtain ⟨l, e1, e2⟩ := (ih m todo _ r fun w hw => hlift (hv w hw)).1 h
        exact ⟨_, l, by simpa using e1, ⟨[], List.nil_prefix, _, hc, rfl⟩, forall₂_imp (fun _ _ => Seen2.none) e2⟩

/-- The call returns after enough operations. -/
theorem run_result (es : List (Event F)) : ∀ (m : Machine F) (todo found : Derivs F),
    (2 * todo.length + 1 ≤ es.countP Option.isNone → ∃ r, (EPc.run m (.check todo found) es).result = some r) ∧
    ∀ v d, (2 * todo.length + 2 ≤ es.countP Option.isNone → ∃ r, (EPc.run m (.mult v d todo found) es).result = some r) := by
  induction es with
  | nil => intro m todo found; exact ⟨fun h => by simp at h, fun v d h => by simp at h⟩
  | cons e es ih =>
    intro m todo found
    cases e with
    | some a =>
      have hc : (some a :: es : List (Event F)).countP Option.isNone = es.countP Option.isNone := by simp
      rw [hc]
      exact ⟨(ih _ todo found).1, (ih _ todo found).2⟩
    | none =>
      have hc : (none :: es : List (Event F)).countP Option.isNone = es.countP Option.isNone + 1 := by simp
      rw [hc]
      refine ⟨fun h => ?_, fun v d h => ?_⟩
      · cases todo with
        | nil => exact ⟨.ok found.reverse, by simp only [EPc.run, EPc.step, run_done, EPc.result]⟩
        | cons i todo =>
          obtain ⟨v, d⟩ := i
          simp only [List.length_cons] at h
          simp only [EPc.run, EPc.step]
          split
          · exact ⟨_, by rw [run_done]; rfl⟩
          · split
            · exact (ih m todo _).1 (by omega)
            · exact (ih m todo _).2 v d (by omega)
      · simp only [EPc.run, EPc.step]
        split
        · exact ⟨_, by rw [run_done]; rfl⟩
        · exact (ih m todo _).1 (by omega)

theorem lookup_forall₂ {R : VarId × F → VarId × F → Prop} (hR : ∀ a b, R a b → b.1 = a.1) {d l : Derivs F}
    (h : List.Forall₂ R d l) (v : VarId) :
    (d.lookup v = none → l.lookup v = none) ∧
    ∀ a, d.lookup v = some a → ∃ e, l.lookup v = some e ∧ R (v, a) (v, e) := by
  induction h with
  | nil => exact ⟨fun _ => rfl, fun a h => by simp at h⟩
  | cons hab _ ih =>
    rename_i i e d l _
    obtain ⟨w, x⟩ := i
    obtain ⟨w', y⟩ := e
    have hw := hR _ _ hab
    simp only at hw
    subst hw
    rw [lookup_cons, lookup_cons]
    by_cases hv : v = w'
    · subst hv
      refine ⟨fun h => by simp at h, fun a h => ?_⟩
      simp only [if_true, Option.some.injEq] at h
      subst h
      exact ⟨y, by simp, hab⟩
    · simp only [hv, if_false]
      exact ih

/-- Components that all correspond to one state of the variables. -/
theorem errorLoop_of_forall₂ {V : List (VarCell F)} {d l : Derivs F}
    (h : List.Forall₂ (fun i e => ∃ c, V[i.1]? = some c ∧ e = (i.1, component i.2 c.std)) d l) :
    errorLoop V d = .ok l := by
  induction h with
  | nil => rfl
  | cons hab _ ih =>
    rename_i i e d l _
    obtain ⟨v, x⟩ := i
    obtain ⟨c, hc, rfl⟩ := hab
    simp only [errorLoop, hc, ih, component]
    split <;> rfl

end any

section halts
variable {F : Type} [PyMath F] [Halts F]

/-- What is known during the call. -/
theorem during_state {cs : List (Cmd F)} {x : Arg F} {D : VarId → Option F} (h : sees cs (.derivatives x) = .dict D) :
    ∃ u d, (∀ v, d.lookup v = D v) ∧
      (∀ es, (after cs).compsDuring x es = (EPc.run (after (cs ++ [.derivatives x])) (.check d []) es).result) ∧
      ∀ p, x.evalUnc (after (during cs x p)).env = some u ∧ (after (during cs x p)).w.nodes[u.lin]? = some (.dict d) ∧
        varsAt (after (cs ++ [.derivatives x])) p = (after (during cs x p)).w.vars ∧
        (∀ v ∈ d.map Prod.fst, v < (after (during cs x p)).w.vars.length) := by
  obtain ⟨u, w', d, h1, h2, h3, h4, h5⟩ := evalUnc_of_dict h
  have hafter : after (cs ++ [.derivatives x]) = ⟨w', (after cs).env⟩ := by
    rw [after_snoc']
    simp only [Machine.step, Machine.read, h1, h3, mapRes, Except.map]
  refine ⟨u, d, h5, fun es => ?_, fun p => ?_⟩
  · simp only [Machine.compsDuring, h1, h3, hafter]
  · have hd : during cs x p = (cs ++ [.derivatives x]) ++ ran p := by simp [during]
    have hu : x.evalUnc (after (cs ++ [.derivatives x])).env = some u := by rw [hafter]; exact h1
    have hn : (after (cs ++ [.derivatives x])).w.nodes[u.lin]? = some (.dict d) := by rw [hafter]; exact h4
    have hs : x.evalUnc (after (during cs x p)).env = some u ∧ (after (during cs x p)).w.nodes[u.lin]? = some (.dict d) := by
      rw [hd]
      cases x with
      | ref k => exact dict_stays hu hn (ran p)
      | const v => simp [Arg.evalUnc, Arg.eval] at hu
    refine ⟨hs.1, hs.2, by rw [hd]; simp only [varsAt, after, run_append], ?_⟩
    have hm := MShape.after (during cs x p)
    obtain ⟨w1, d1, e1, e2, e3⟩ := World.derivatives_shape hm.shape (hm.evalUnc hs.1)
    have : d1 = d := by
      simp only [World.derivatives, readDerivs, hs.2, Prod.mk.injEq, Except.ok.injEq] at e1
      exact e1.2.symm
    subst this
    exact e3

theorem seesKeyStd_of_state {cs : List (Cmd F)} {x : Arg F} {u : UF F} {d : Derivs F} {v : VarId} {c : VarCell F} {a : F}
    (hu : x.evalUnc (after cs).env = some u) (hd : (after cs).w.nodes[u.lin]? = some (.dict d))
    (ha : d.lookup v = some a) (hc : (after cs).w.vars[v]? = some c) : seesKeyStd cs x v = .val (.flt c.std) := by
  have h1 : (after cs).w.derivatives u = ((after cs).w, .ok d) := by
    simp only [World.derivatives, readDerivs, hd]
  simp only [seesKeyStd, sees, after_snoc', Machine.step, hu, World.variable, h1, ha, hc, next, Arg.eval,
    List.getElem?_append_right (Nat.le_refl _), Nat.sub_self, List.getElem?_cons_zero, Option.join, Option.bind,
    World.stdDevOf, World.stdDev, id]

theorem sees_s_of_state {cs : List (Cmd F)} {x : Arg F} {u : UF F} {d : Derivs F}
    (hu : x.evalUnc (after cs).env = some u) (hd : (after cs).w.nodes[u.lin]? = some (.dict d)) :
    sees cs (.s x) = finishStd (errorLoop (after cs).w.vars d) := by
  have h1 : (after cs).w.derivatives u = ((after cs).w, .ok d) := by
    simp only [World.derivatives, readDerivs, hd]
  simp only [sees, Machine.step, Machine.read, hu, World.affStdDev, World.errorComponents, h1, finishStd, mapRes]
  cases errorLoop (after cs).w.vars d with
  | error e => rfl
  | ok l =>
    simp only
    cases sumSquares (l.map Prod.snd) 0 with
    | error e => rfl
    | ok t =>
      simp only
      cases PyFloat.sqrt t <;> rfl

theorem sees_errorComponents_of_state {cs : List (Cmd F)} {x : Arg F} {u : UF F} {d l : Derivs F}
    (hu : x.evalUnc (after cs).env = some u) (hd : (after cs).w.nodes[u.lin]? = some (.dict d))
    (hl : errorLoop (after cs).w.vars d = .ok l) :
    sees cs (.errorComponents x) = .dict (fun v => l.lookup v) := by
  have h1 : (after cs).w.derivatives u = ((after cs).w, .ok d) := by
    simp only [World.derivatives, readDerivs, hd]
  simp only [sees, Machine.step, Machine.read, hu, World.errorComponents, h1, hl, mapRes, Except.map]

end halts

end Unc
