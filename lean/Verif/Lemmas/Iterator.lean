import Verif.Lemmas.Effects
import Verif.Spec.Iterator

/-
Wrapped functions with an iterator of derivatives: the cache holds the elements that the iterator has given, in order.
-/

namespace Unc

set_option autoImplicit false

section
variable {I D : Type}

theorem elementsOf_append (a b : List (NextRes D)) : elementsOf (a ++ b) = elementsOf a ++ elementsOf b := by
  simp [elementsOf]

/-- The element for an index. -/
def elementAt (conv : Nat → Option D) (R : List (NextRes D)) (k : Nat) : Option D :=
  match ((elementsOf R)[k]?).join with
  | some d => some d
  | none => conv k

/-- Invariant: `R` is the list of the answers of the iterator. -/
structure IIter.OK (it : IIter D) (R : List (NextRes D)) : Prop where
  running : it.ended = false → it.returnedElements.length = (elementsOf R).length ∧ NextRes.stop ∉ R
  le : (elementsOf R).length ≤ it.returnedElements.length
  elems : ∀ k, k < it.returnedElements.length → it.returnedElements[k]? = some (elementAt it.noneConverter R k)
  last : ∀ A B, R = A ++ NextRes.stop :: B → B = []
  stopped : it.ended = true → NextRes.stop ∈ R

theorem NoException.nil : NoException ([] : List (NextRes D)) := fun _ h => by cases h

theorem NoException.append {a b : List (NextRes D)} (ha : NoException a) (hb : NoException b) : NoException (a ++ b) :=
  fun e h => (List.mem_append.1 h).elim (ha e) (hb e)

/-- Elements already in the cache do not depend on later answers. -/
theorem IIter.OK.stable {it : IIter D} {R : List (NextRes D)} (h : it.OK R) (M : List (NextRes D)) (hM : it.ended = true → M = [])
    (k : Nat) (hk : k < it.returnedElements.length) : (elementsOf (R ++ M))[k]? = (elementsOf R)[k]? := by
  cases he : it.ended with
  | true => rw [hM he, List.append_nil]
  | false =>
    rw [(h.running he).1] at hk
    rw [elementsOf_append, List.getElem?_append_left hk]

/-- One step of the loop, for an iterator that does not raise an exception. -/
theorem IIter.next_ok (src : Source I D) {it : IIter D} {R : List (NextRes D)} (h : it.OK R) (i : I) :
    (∃ it' i' M v, it.next (notedSource src) (i, R) = (it', (i', R ++ M), .ok v) ∧ NoException M ∧ (it.ended = true → M = [] ∧ it'.ended = true) ∧
      it'.noneConverter = it.noneConverter ∧
      ({ it' with returnedElements := it'.returnedElements ++
        [match v with | none => it'.noneConverter it.returnedElements.length | some d => some d] } : IIter D).OK (R ++ M) ∧
      it'.returnedElements = it.returnedElements ∧ (elementsOf (R ++ M)).length ≤ max (elementsOf R).length (it.returnedElements.length + 1)) ∨
    (∃ i' e, it.next (notedSource src) (i, R) = (it, (i', R ++ [.raise e]), .error e) ∧ it.ended = false) := by
  cases he : it.ended with
  | true =>
    left
    refine ⟨it, i, [], none, by simp [IIter.next, he], NoException.nil, fun _ => ⟨rfl, he⟩, rfl, ?_, rfl, by rw [List.append_nil]; omega⟩
    rw [List.append_nil]
    refine ⟨fun h' => (by rw [show it.ended = false from h'] at he; cases he), ?_, ?_, h.last, fun _ => h.stopped he⟩
    · simp only [List.length_append, List.length_singleton]; have := h.le; omega
    · intro k hk
      simp only [List.length_append, List.length_singleton] at hk
      by_cases hlt : k < it.returnedElements.length
      · simp only [List.getElem?_append_left hlt]; exact h.elems k hlt
      · have : k = it.returnedElements.length := by omega
        subst this
        have hn : (elementsOf R)[it.returnedElements.length]? = none := List.getElem?_eq_none h.le
        simp only [List.getElem?_concat_length, elementAt, hn, Option.join_none]
  | false =>
    obtain ⟨hl, hs⟩ := h.running he
    rcases ha : src i with ⟨i', _ | e | d⟩
    · left
      refine ⟨{ it with ended := true }, i', [.stop], none, by simp [IIter.next, he, notedSource, ha], ?_, fun h => by simp at h,
        rfl, ?_, rfl, by rw [elementsOf_append]; simp [elementsOf]; omega⟩
      · intro e h; simp at h
      · refine ⟨fun h' => by simp at h', ?_, ?_, ?_, fun _ => by simp⟩
        · simp [elementsOf_append, elementsOf]; have := h.le; simp [elementsOf] at this; omega
        · intro k hk
          simp only [List.length_append, List.length_singleton] at hk
          have e0 : elementsOf (R ++ [NextRes.stop]) = elementsOf R := by simp [elementsOf]
          by_cases hlt : k < it.returnedElements.length
          · simp only [List.getElem?_append_left hlt, elementAt, e0]; exact h.elems k hlt
          · have : k = it.returnedElements.length := by omega
            subst this
            have hn : (elementsOf R)[it.returnedElements.length]? = none := List.getElem?_eq_none h.le
            simp only [List.getElem?_concat_length, elementAt, e0, hn, Option.join_none]
        · intro A B hAB
          rcases List.eq_nil_or_concat B with rfl | ⟨B', b, rfl⟩
          · rfl
          · exfalso
            apply hs
            have : R ++ [NextRes.stop] = (A ++ NextRes.stop :: B') ++ [b] := by rw [hAB]; simp
            have := (List.append_inj' this rfl).1
            rw [this]; simp
    · right
      exact ⟨i', e, by simp [IIter.next, he, notedSource, ha], rfl⟩
    · left
      refine ⟨it, i', [.item d], d, by simp [IIter.next, he, notedSource, ha], ?_, fun h => by simp at h, rfl, ?_, rfl,
        by simp [elementsOf_append, elementsOf, hl]⟩
      · intro e h; simp at h
      · have e0 : elementsOf (R ++ [NextRes.item d]) = elementsOf R ++ [d] := by simp [elementsOf]
        refine ⟨fun _ => ⟨by simp [e0, hl], by simp [hs]⟩, by simp [e0, hl], ?_, ?_, fun h' => by rw [show it.ended = true from h'] at he; cases he⟩
        · intro k hk
          simp only [List.length_append, List.length_singleton] at hk
          by_cases hlt : k < it.returnedElements.length
          · have h1 := h.elems k hlt
            simp only [List.getElem?_append_left hlt, elementAt, e0, h1]
            rw [List.getElem?_append_left (by omega)]
          · have : k = it.returnedElements.length := by omega
            subst this
            have hn : (elementsOf R ++ [d])[it.returnedElements.length]? = some d := by rw [hl]; simp
            simp only [List.getElem?_concat_length, elementAt, e0, hn, Option.join_some]
            cases d <;> rfl
        · intro A B hAB
          rcases List.eq_nil_or_concat B with rfl | ⟨B', b, rfl⟩
          · rfl
          · exfalso
            apply hs
            have : R ++ [NextRes.item d] = (A ++ NextRes.stop :: B') ++ [b] := by rw [hAB]; simp
            have := (List.append_inj' this rfl).1
            rw [this]; simp

theorem IIter.OK.raise {it : IIter D} {R : List (NextRes D)} (h : it.OK R) (he : it.ended = false) (e : PyErr) :
    it.OK (R ++ [.raise e]) := by
  have e0 : elementsOf (R ++ [NextRes.raise e]) = elementsOf R := by simp [elementsOf]
  obtain ⟨hl, hs⟩ := h.running he
  refine ⟨fun _ => ⟨by rw [e0, hl], by simp [hs]⟩, by rw [e0]; exact h.le, fun k hk => ?_, fun A B hAB => ?_, fun h' => by rw [h'] at he; cases he⟩
  · rw [h.elems k hk]; simp only [elementAt, e0]
  · rcases List.eq_nil_or_concat B with rfl | ⟨B', b, rfl⟩
    · rfl
    · exfalso
      apply hs
      have : R ++ [NextRes.raise e] = (A ++ NextRes.stop :: B') ++ [b] := by rw [hAB]; simp
      have := (List.append_inj' this rfl).1
      rw [this]; simp

/-- The answers of a request: no exception, or an exception at the end. -/
inductive Asked (M : List (NextRes D)) : Option PyErr → Prop
  | fine (h : NoException M) : Asked M none
  | failed (M0 : List (NextRes D)) (e : PyErr) (h0 : NoException M0) (hM : M = M0 ++ [.raise e]) : Asked M (some e)

theorem Asked.prepend {M M1 : List (NextRes D)} {o : Option PyErr} (h1 : NoException M1) (h : Asked M o) : Asked (M1 ++ M) o := by
  cases h with
  | fine h => exact .fine (h1.append h)
  | failed M0 e h0 hM => exact .failed (M1 ++ M0) e (h1.append h0) (by rw [hM, List.append_assoc])

theorem IIter.fetchMany_ok (src : Source I D) (n : Nat) {it : IIter D} {R : List (NextRes D)} (h : it.OK R) (i : I) :
    ∃ it' i' M r, IIter.fetchMany (notedSource src) it.returnedElements.length n it (i, R) = (it', (i', R ++ M), r) ∧
      Asked M (raisedBy r) ∧ it'.OK (R ++ M) ∧ it'.noneConverter = it.noneConverter ∧ (it.ended = true → M = [] ∧ it'.ended = true) ∧
      it.returnedElements.length ≤ it'.returnedElements.length ∧
      (raisedBy r = none → it'.returnedElements.length = it.returnedElements.length + n) ∧
      (elementsOf (R ++ M)).length ≤ max (elementsOf R).length (it.returnedElements.length + n) := by
  induction n generalizing it R i with
  | zero =>
    exact ⟨it, i, [], .ok (), by simp [IIter.fetchMany], .fine NoException.nil, by simpa using h, rfl, fun he => ⟨rfl, he⟩, Nat.le_refl _,
      fun _ => rfl, by rw [List.append_nil]; omega⟩
  | succ n ih =>
    rcases IIter.next_ok src h i with ⟨it1, i1, M1, v, h1, hM1, hend, hconv, hok, hret, hle⟩ | ⟨i1, e, h1, he⟩
    · obtain ⟨it2, i2, M2, r, a1, a2, a3, a4, a5, a6, a7, a8⟩ := ih hok i1
      simp only [List.length_append, List.length_singleton, hret] at a1 a6 a7 a8
      refine ⟨it2, i2, M1 ++ M2, r, ?_, a2.prepend hM1, ?_, a4.trans hconv, ?_, by omega, fun hr => by rw [a7 hr]; omega, ?_⟩
      · simp only [IIter.fetchMany, h1]
        rw [hret] at *
        rw [← List.append_assoc]
        exact a1
      · rw [← List.append_assoc]; exact a3
      · intro he
        obtain ⟨b1, b2⟩ := hend he
        obtain ⟨b3, b4⟩ := a5 b2
        exact ⟨by rw [b1, b3]; rfl, b4⟩
      · rw [← List.append_assoc]; omega
    · refine ⟨it, i1, [.raise e], .error e, by simp [IIter.fetchMany, h1], .failed [] e NoException.nil rfl, h.raise he e, rfl,
        fun h' => (by rw [h'] at he; cases he), Nat.le_refl _, fun h' => (by cases h'), ?_⟩
      rw [elementsOf_append]; simp [elementsOf]; omega

theorem IIter.getItem_ok (src : Source I D) {it : IIter D} {R : List (NextRes D)} (h : it.OK R) (index : Nat) (i : I) :
    ∃ it' i' M r, it.getItem (notedSource src) index (i, R) = (it', (i', R ++ M), r) ∧
      Asked M (raisedBy r) ∧ it'.OK (R ++ M) ∧ it'.noneConverter = it.noneConverter ∧ (it.ended = true → M = [] ∧ it'.ended = true) ∧
      it.returnedElements.length ≤ it'.returnedElements.length ∧
      (∀ v, r = .ok v → v = elementAt it.noneConverter (R ++ M) index ∧ index < it'.returnedElements.length) ∧
      (elementsOf (R ++ M)).length ≤ max (elementsOf R).length (index + 1) ∧
      (index < it.returnedElements.length → M = [] ∧ i' = i) := by
  unfold IIter.getItem
  by_cases hlt : index < it.returnedElements.length
  · rw [h.elems index hlt]
    exact ⟨it, i, [], .ok (elementAt it.noneConverter R index), by simp only [List.append_nil], .fine NoException.nil, by simpa using h, rfl, fun he => ⟨rfl, he⟩, Nat.le_refl _,
      fun v hv => by cases hv; exact ⟨by rw [List.append_nil], hlt⟩, by rw [List.append_nil]; omega, fun _ => ⟨rfl, rfl⟩⟩
  · rw [List.getElem?_eq_none (by omega)]
    obtain ⟨it2, i2, M2, r, a1, a2, a3, a4, a5, a6, a7, a8⟩ := IIter.fetchMany_ok src (index + 1 - it.returnedElements.length) h i
    simp only [a1]
    cases r with
    | error e =>
      refine ⟨it2, i2, M2, .error e, rfl, a2, a3, a4, a5, a6, fun v hv => (by cases hv), ?_, fun h' => absurd h' hlt⟩
      omega
    | ok u =>
      have hlen := a7 rfl
      have hi : index < it2.returnedElements.length := by omega
      simp only [a3.elems index hi]
      refine ⟨it2, i2, M2, _, rfl, a2, a3, a4, a5, a6, fun v hv => by cases hv; exact ⟨by rw [a4], hi⟩, by omega, fun h' => absurd h' hlt⟩

theorem initArgspecI_ok (src : Source I D) (num : ArgRef → D) (index : Nat) (names : List String) {it : IIter D}
    {R : List (NextRes D)} (kw : List (String × D)) (hn : names.Nodup) (hit : it.OK R) (hnc : it.noneConverter = fun _ => none) (i : I) :
    ∃ i' M r, initArgspecI (notedSource src) num index names it kw (i, R) = ((i', R ++ M), r) ∧ Asked M (raisedBy r) ∧
      (it.ended = true → M = []) ∧
      (elementsOf (R ++ M)).length ≤ max (elementsOf R).length (index + names.length) ∧
      ∀ it' kw', r = .ok (it', kw') → it'.OK (R ++ M) ∧ it'.noneConverter = (fun _ => none) ∧
        it.returnedElements.length ≤ it'.returnedElements.length ∧
        (names ≠ [] → index + names.length ≤ it'.returnedElements.length) ∧ (it.ended = true → it'.ended = true) ∧
        ∀ name, kw'.lookup name =
          match names.idxOf? name with
          | some j => some ((((elementsOf (R ++ M))[index + j]?).join).getD (num (.kw name)))
          | none => kw.lookup name := by
  induction names generalizing index it R kw i with
  | nil =>
    exact ⟨i, [], .ok (it, kw), by simp only [initArgspecI, List.append_nil], .fine NoException.nil, fun _ => rfl, by rw [List.append_nil]; omega,
      fun it' kw' h => by cases h; exact ⟨by simpa using hit, hnc, Nat.le_refl _, fun h => absurd rfl h, id, fun name => by simp⟩⟩
  | cons n names ih =>
    have hn' : names.Nodup := (List.nodup_cons.mp hn).2
    have hnn : n ∉ names := (List.nodup_cons.mp hn).1
    have hidx : names.idxOf? n = none := by rw [List.idxOf?_eq_none_iff]; simpa using hnn
    obtain ⟨it1, i1, M1, r1, a1, a2, a3, a4, a5, a6, a7, a8, -⟩ := IIter.getItem_ok src hit index i
    cases r1 with
    | error e =>
      refine ⟨i1, M1, .error e, by simp only [initArgspecI, a1], a2, fun he => (a5 he).1, ?_, fun _ _ h => (by cases h)⟩
      simp only [List.length_cons]; omega
    | ok v =>
      obtain ⟨hv, hlt⟩ := a7 v rfl
      have hM1 : NoException M1 := by cases a2 with | fine h => exact h
      have hv' : v = ((elementsOf (R ++ M1))[index]?).join := by
        rw [hv, elementAt, hnc]; cases ((elementsOf (R ++ M1))[index]?).join <;> rfl
      have step : initArgspecI (notedSource src) num index (n :: names) it kw (i, R) =
          initArgspecI (notedSource src) num (index + 1) names it1 (setKw kw n (v.getD (num (.kw n)))) (i1, R ++ M1) := by
        simp only [initArgspecI, a1]
        cases v <;> rfl
      obtain ⟨i2, M2, r, b1, b2, b3, b4, b5⟩ := ih (index + 1) (setKw kw n (v.getD (num (.kw n)))) hn' a3 (a4.trans hnc) i1
      refine ⟨i2, M1 ++ M2, r, by rw [step, b1, List.append_assoc], b2.prepend hM1, ?_, ?_, ?_⟩
      · intro he
        obtain ⟨c1, c2⟩ := a5 he
        rw [c1, b3 c2]; rfl
      · rw [← List.append_assoc]; simp only [List.length_cons]; omega
      · intro it' kw' hr
        obtain ⟨c1, c2, c3, c4, c5, c6⟩ := b5 it' kw' hr
        refine ⟨by rw [← List.append_assoc]; exact c1, c2, by omega, fun _ => ?_, fun he => c5 (a5 he).2, fun name => ?_⟩
        · simp only [List.length_cons]
          rcases names with _ | ⟨m, names⟩
          · simp; omega
          · have := c4 (by simp); simp only [List.length_cons] at this ⊢; omega
        · rw [c6 name, List.idxOf?_cons, ← List.append_assoc]
          by_cases hname : name = n
          · subst hname
            simp only [hidx, lookup_setKw, if_true, beq_self_eq_true, Nat.add_zero, hv']
            rw [a3.stable M2 b3 index hlt]
          · have : (n == name) = false := by simpa using fun h => hname h.symm
            simp only [this, lookup_setKw, hname, if_false]
            cases names.idxOf? name with
            | none => simp
            | some j =>
              simp only [Option.map_some, Bool.false_eq_true, if_false]
              have : index + 1 + j = index + (j + 1) := by omega
              rw [this]

end

/-! ### Wrapped functions -/

section
variable {S I F : Type} [PyFloat F]

/-- The derivative to be called, given the answers of the iterator. -/
def IWrapDef.specOf (df : IWrapDef S I F) (R : List (NextRes (EDeriv S F))) (r : ArgRef) : EDeriv S F :=
  (df.withList (elementsOf R)).spec r

/-- Invariant of a wrapped function. -/
structure IWrapped.OK (df : IWrapDef S I F) (wf : IWrapped S (I × List (NextRes (EDeriv S F))) F) (R : List (NextRes (EDeriv S F))) : Prop where
  wrapDef : wf.df = df.noted
  nones : wf.iter.noneConverter = fun i => some (partialDerivativeE df.f (.pos i))
  iter : wf.iter.OK R
  names : (df.argspec.getD []).length ≤ wf.iter.returnedElements.length
  kw : ∀ name d, wf.kw.lookup name = some d → d = df.specOf R (.kw name)
  kwNone : ∀ name, wf.kw.lookup name = none → df.specOf R (.kw name) = partialDerivativeE df.f (.kw name)

/-- Derivatives that are known do not depend on later answers. -/
theorem IWrapped.OK.stable_pos {df : IWrapDef S I F} {wf : IWrapped S (I × List (NextRes (EDeriv S F))) F}
    {R : List (NextRes (EDeriv S F))} (h : wf.OK df R) (M : List (NextRes (EDeriv S F))) (hM : wf.iter.ended = true → M = []) (k : Nat)
    (hk : k < wf.iter.returnedElements.length) : df.specOf (R ++ M) (.pos k) = df.specOf R (.pos k) := by
  unfold IWrapDef.specOf
  rw [EWrapDef.spec_pos, EWrapDef.spec_pos]
  simp only [IWrapDef.withList, h.iter.stable M hM k hk]

theorem IWrapped.OK.stable_kw {df : IWrapDef S I F} {wf : IWrapped S (I × List (NextRes (EDeriv S F))) F}
    {R : List (NextRes (EDeriv S F))} (h : wf.OK df R) (M : List (NextRes (EDeriv S F))) (hM : wf.iter.ended = true → M = []) (name : String) :
    df.specOf (R ++ M) (.kw name) = df.specOf R (.kw name) := by
  unfold IWrapDef.specOf EWrapDef.spec EWrapDef.given
  simp only [IWrapDef.withList]
  cases hi : (df.argspec.getD []).idxOf? name with
  | none => rfl
  | some j =>
    have hj : j < (df.argspec.getD []).length := by
      have := List.idxOf?_eq_some_iff.mp hi
      exact this.1
    simp only [h.iter.stable M hM j (Nat.lt_of_lt_of_le hj h.names)]

end

end Unc
