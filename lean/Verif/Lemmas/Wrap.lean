import Mathlib.Data.List.Nodup
import Verif.Spec.Wrap

/-
The caches of a wrapped function always hold the documented derivatives.
-/

namespace Unc

variable {F : Type} [PyFloat F]

theorem chained_specPos (df : WrapDef F) (i : Nat) :
    df.specPos i = (df.derivativesArgs.chained i).getD (partialDerivative df.f (.pos i)) := by
  unfold WrapDef.specPos DSource.chained
  cases df.derivativesArgs with
  | finite l =>
    simp only []
    cases l[i]? with
    | none => rfl
    | some o => cases o <;> rfl
  | infinite s => simp only []; cases s i <;> rfl

theorem chained_specParam (df : WrapDef F) (i : Nat) (name : String) :
    df.specParam i name =
      (df.derivativesArgs.chained i).getD (partialDerivative df.f (.kw name)) := by
  unfold WrapDef.specParam DSource.chained
  cases df.derivativesArgs with
  | finite l =>
    simp only []
    cases l[i]? with
    | none => rfl
    | some o => cases o <;> rfl
  | infinite s => simp only []; cases s i <;> rfl

/-! ### IndexableIter -/

/-- What the iterator must serve at each index. -/
def IndexableIter.value (it : IndexableIter F) (i : Nat) : Option (DerivFn F) :=
  match it.stream i with
  | some d => some d
  | none => it.noneConverter i

/-- Invariant of `IndexableIter`. -/
structure IndexableIter.OK (it : IndexableIter F) : Prop where
  taken : it.taken = it.returnedElements.length
  elems : ∀ i, i < it.returnedElements.length → it.returnedElements[i]? = some (it.value i)

theorem IndexableIter.fetch_ok {it : IndexableIter F} (h : it.OK) :
    (it.fetch it.returnedElements.length).OK ∧
    (it.fetch it.returnedElements.length).stream = it.stream ∧
    (it.fetch it.returnedElements.length).noneConverter = it.noneConverter ∧
    (it.fetch it.returnedElements.length).returnedElements.length =
      it.returnedElements.length + 1 := by
  refine ⟨⟨?_, ?_⟩, rfl, rfl, ?_⟩
  · simp [IndexableIter.fetch, h.taken]
  · intro i hi
    simp only [IndexableIter.fetch, List.length_append, List.length_singleton] at hi ⊢
    by_cases hlt : i < it.returnedElements.length
    · rw [List.getElem?_append_left hlt]; exact h.elems i hlt
    · have : i = it.returnedElements.length := by omega
      subst this
      simp only [List.getElem?_concat_length]
      simp only [IndexableIter.value, h.taken]
      cases it.stream it.returnedElements.length <;> rfl
  · simp [IndexableIter.fetch]

theorem IndexableIter.fetchMany_ok (n : Nat) {it : IndexableIter F} (h : it.OK) :
    (it.fetchMany it.returnedElements.length n).OK ∧
    (it.fetchMany it.returnedElements.length n).stream = it.stream ∧
    (it.fetchMany it.returnedElements.length n).noneConverter = it.noneConverter ∧
    (it.fetchMany it.returnedElements.length n).returnedElements.length =
      it.returnedElements.length + n := by
  induction n generalizing it with
  | zero => exact ⟨h, rfl, rfl, rfl⟩
  | succ n ih =>
    obtain ⟨h1, h2, h3, h4⟩ := IndexableIter.fetch_ok h
    have := ih h1
    rw [h4] at this
    simp only [IndexableIter.fetchMany]
    obtain ⟨a, b, c, d⟩ := this
    exact ⟨a, b.trans h2, c.trans h3, by rw [d]; omega⟩

/-- Indexing serves the right element, keeps the invariant, and takes from the iterator only what
is needed. -/
theorem IndexableIter.getItem_ok {it : IndexableIter F} (h : it.OK) (i : Nat) :
    ∃ it', it.getItem i = (it', .ok (it.value i)) ∧ it'.OK ∧ it'.stream = it.stream ∧
      it'.noneConverter = it.noneConverter ∧
      it'.returnedElements.length = max it.returnedElements.length (i + 1) := by
  unfold IndexableIter.getItem
  by_cases hlt : i < it.returnedElements.length
  · rw [h.elems i hlt]
    exact ⟨it, rfl, h, rfl, rfl, by omega⟩
  · rw [List.getElem?_eq_none (by omega)]
    obtain ⟨a, b, c, d⟩ := IndexableIter.fetchMany_ok (i + 1 - it.returnedElements.length) h
    have hlen : i < (it.fetchMany it.returnedElements.length
        (i + 1 - it.returnedElements.length)).returnedElements.length := by omega
    simp only [a.elems i hlen]
    refine ⟨_, ?_, a, b, c, by omega⟩
    simp [IndexableIter.value, b, c]

/-! ### Keyword dictionaries -/

theorem lookup_setKw {α : Type} (l : List (String × α)) (name k : String) (x : α) :
    (setKw l name x).lookup k = if k = name then some x else l.lookup k := by
  induction l with
  | nil =>
    by_cases h : k = name
    · subst h; simp [setKw, List.lookup]
    · have : (k == name) = false := by simpa using h
      simp [setKw, List.lookup, this, h]
  | cons p l ih =>
    obtain ⟨m, y⟩ := p
    by_cases hm : m = name
    · subst hm
      by_cases h : k = m
      · subst h; simp [setKw, List.lookup]
      · have : (k == m) = false := by simpa using h
        simp [setKw, List.lookup, this, h]
    · simp only [setKw, hm, if_false]
      by_cases h : k = m
      · subst h; simp [List.lookup, hm]
      · have : (k == m) = false := by simpa using h
        simp [List.lookup, this, ih]

theorem initKwargs_lookup (f : PyFn F) (l : List (String × Option (DerivFn F)))
    (kw : List (String × DerivFn F)) (hl : (l.map Prod.fst).Nodup) (name : String) :
    (initKwargs f l kw).lookup name =
      match l.lookup name with
      | some (some d) => some d
      | some none => some (partialDerivative f (.kw name))
      | none => kw.lookup name := by
  induction l generalizing kw with
  | nil => rfl
  | cons p l ih =>
    obtain ⟨k, o⟩ := p
    have hl' : (l.map Prod.fst).Nodup := (List.nodup_cons.mp hl).2
    have hk : k ∉ l.map Prod.fst := (List.nodup_cons.mp hl).1
    have hnone : l.lookup k = none := by
      rw [List.lookup_eq_none_iff]
      intro p hp
      simp only [beq_eq_false_iff_ne, ne_eq, bne_iff_ne]
      intro he
      exact hk (List.mem_map.mpr ⟨p, hp, he.symm⟩)
    by_cases h : name = k
    · subst h
      cases o <;> simp [initKwargs, ih _ hl', hnone, lookup_setKw, List.lookup]
    · have h2 : (name == k) = false := by simpa using h
      cases o <;> simp [initKwargs, ih _ hl', lookup_setKw, List.lookup, h2, h]

theorem initArgspec_ok (f : PyFn F) (index : Nat) (names : List String) (it : IndexableIter F)
    (kw : List (String × DerivFn F)) (hn : names.Nodup) (hit : it.OK)
    (hnc : it.noneConverter = fun _ => none) :
    (initArgspec f index names it kw).1.OK ∧
    (initArgspec f index names it kw).1.stream = it.stream ∧
    (initArgspec f index names it kw).1.noneConverter = (fun _ => none) ∧
    (∀ name, (initArgspec f index names it kw).2.lookup name =
      match names.idxOf? name with
      | some i => some ((it.stream (index + i)).getD (partialDerivative f (.kw name)))
      | none => kw.lookup name) := by
  induction names generalizing index it kw with
  | nil => exact ⟨hit, rfl, hnc, fun name => by simp [initArgspec]⟩
  | cons n names ih =>
    have hn' : names.Nodup := (List.nodup_cons.mp hn).2
    have hnn : n ∉ names := (List.nodup_cons.mp hn).1
    obtain ⟨it', h1, h2, h3, h4, -⟩ := IndexableIter.getItem_ok hit index
    have hval : it.value index = it.stream index := by
      unfold IndexableIter.value; rw [hnc]; cases it.stream index <;> rfl
    rw [hval] at h1
    have hidx : names.idxOf? n = none := by
      rw [List.idxOf?_eq_none_iff]; simpa using hnn
    have step : ∀ d : DerivFn F, d = (it.stream index).getD (partialDerivative f (.kw n)) →
        initArgspec f index (n :: names) it kw =
          initArgspec f (index + 1) names it' (setKw kw n d) := by
      intro d hd
      subst hd
      simp only [initArgspec, h1]
      cases it.stream index <;> rfl
    rw [step _ rfl]
    obtain ⟨a, b, c, e⟩ := ih (index + 1) it' (setKw kw n _) hn' h2 (h4.trans hnc)
    refine ⟨a, b.trans h3, c, ?_⟩
    intro name
    rw [e name, List.idxOf?_cons]
    by_cases hname : name = n
    · subst hname
      simp [hidx, lookup_setKw]
    · have : (n == name) = false := by simpa using fun h => hname h.symm
      simp only [this, lookup_setKw, hname, if_false]
      cases names.idxOf? name with
      | none => simp
      | some i =>
        simp only [Option.map_some, h3, Bool.false_eq_true, if_false]
        have : index + 1 + i = index + (i + 1) := by omega
        rw [this]

theorem convertNones_getElem (f : PyFn F) (index : Nat) (l : List (Option (DerivFn F))) (i : Nat) :
    (convertNones f index l)[i]? =
      (l[i]?).map (fun o => some (o.getD (partialDerivative f (.pos (index + i))))) := by
  induction l generalizing index i with
  | nil => simp [convertNones]
  | cons o l ih =>
    have key : convertNones f index (o :: l) =
        some (o.getD (partialDerivative f (.pos index))) :: convertNones f (index + 1) l := by
      cases o <;> rfl
    rw [key]
    cases i with
    | zero => simp
    | succ i =>
      simp only [List.getElem?_cons_succ, ih]
      have : index + 1 + i = index + (i + 1) := by omega
      rw [this]

theorem convertNones_length (f : PyFn F) (index : Nat) (l : List (Option (DerivFn F))) :
    (convertNones f index l).length = l.length := by
  induction l generalizing index with
  | nil => rfl
  | cons o l ih => cases o <;> simp [convertNones, ih]

/-! ### Wrapped functions -/

/-- Invariant of a wrapped function. -/
structure Wrapped.OK (wf : Wrapped F) : Prop where
  stream : wf.iter.stream = wf.df.derivativesArgs.chained
  nones : wf.iter.noneConverter = fun i => some (partialDerivative wf.df.f (.pos i))
  iter : wf.iter.OK
  kw : ∀ name d, wf.kw.lookup name = some d → d = wf.df.specKw name
  kwNone : ∀ name, wf.kw.lookup name = none →
    wf.df.specKw name = partialDerivative wf.df.f (.kw name)

theorem Wrapped.OK.value {wf : Wrapped F} (h : wf.OK) (i : Nat) :
    wf.iter.value i = some (wf.df.specPos i) := by
  unfold IndexableIter.value
  rw [h.stream, h.nones, chained_specPos]
  cases wf.df.derivativesArgs.chained i <;> rfl

theorem mkWrapped_ok (df : WrapDef F) : (mkWrapped df).OK := by
  have hit0 : (IndexableIter.mk' df.derivativesArgs.chained).OK :=
    ⟨rfl, fun i hi => by simp [IndexableIter.mk'] at hi⟩
  have hkw0 : ∀ name, (initKwargs df.f df.derivativesKwargs []).lookup name =
      match df.derivativesKwargs.lookup name with
      | some (some d) => some d
      | some none => some (partialDerivative df.f (.kw name))
      | none => none := by
    intro name
    rw [initKwargs_lookup _ _ _ df.kwargsNodup]; rfl
  -- General facts about the last step
  have finish : ∀ (it : IndexableIter F) (kw : List (String × DerivFn F)), it.OK →
      it.stream = df.derivativesArgs.chained → it.noneConverter = (fun _ => none) →
      (∀ name d, kw.lookup name = some d → d = df.specKw name) →
      (∀ name, kw.lookup name = none → df.specKw name = partialDerivative df.f (.kw name)) →
      Wrapped.OK { df := df, iter := { it with
          returnedElements := convertNones df.f 0 it.returnedElements
          noneConverter := fun index => some (partialDerivative df.f (.pos index)) }, kw := kw } := by
    intro it kw hok hs hn hk1 hk2
    refine ⟨hs, rfl, ⟨?_, ?_⟩, hk1, hk2⟩
    · simp [convertNones_length, hok.taken]
    · intro i hi
      simp only [convertNones_length] at hi
      simp only [convertNones_getElem, hok.elems i hi, Option.map_some, Nat.zero_add]
      simp only [IndexableIter.value, hn]
      cases it.stream i <;> rfl
  unfold mkWrapped
  cases hspec : df.argspec with
  | none =>
    apply finish _ _ hit0 rfl rfl
    · intro name d hd
      rw [hkw0] at hd
      simp only [WrapDef.specKw, hspec, WrapDef.specKeyword]
      cases hl : df.derivativesKwargs.lookup name with
      | none => simp [hl] at hd
      | some o => cases o <;> simp_all
    · intro name hd
      rw [hkw0] at hd
      simp only [WrapDef.specKw, hspec, WrapDef.specKeyword]
      cases hl : df.derivativesKwargs.lookup name with
      | none => rfl
      | some o => cases o <;> simp_all
  | some names =>
    obtain ⟨a, b, c, e⟩ := initArgspec_ok df.f 0 names _ (initKwargs df.f df.derivativesKwargs [])
      (df.argspecNodup names hspec) hit0 rfl
    apply finish _ _ a b c
    · intro name d hd
      rw [e name] at hd
      simp only [WrapDef.specKw, hspec]
      cases hi : names.idxOf? name with
      | some i =>
        simp only [hi, Option.some.injEq] at hd
        simp only [chained_specParam]
        rw [← hd]; simp [IndexableIter.mk']
      | none =>
        simp only [hi] at hd
        rw [hkw0] at hd
        simp only [WrapDef.specKeyword]
        cases hl : df.derivativesKwargs.lookup name with
        | none => simp [hl] at hd
        | some o => cases o <;> simp_all
    · intro name hd
      rw [e name] at hd
      simp only [WrapDef.specKw, hspec]
      cases hi : names.idxOf? name with
      | some i => simp [hi] at hd
      | none =>
        simp only [hi] at hd
        rw [hkw0] at hd
        simp only [WrapDef.specKeyword]
        cases hl : df.derivativesKwargs.lookup name with
        | none => rfl
        | some o => cases o <;> simp_all

theorem mkWrapped_df (df : WrapDef F) : (mkWrapped df).df = df := by
  unfold mkWrapped; cases df.argspec <;> rfl

theorem Wrapped.posDeriv_ok {wf : Wrapped F} (h : wf.OK) (pos : Nat) :
    ∃ wf', wf.posDeriv pos = (wf', .ok (wf.df.specPos pos)) ∧ wf'.OK ∧ wf'.df = wf.df := by
  obtain ⟨it', h1, h2, h3, h4, -⟩ := IndexableIter.getItem_ok h.iter pos
  rw [h.value] at h1
  refine ⟨{ wf with iter := it' }, ?_, ?_, rfl⟩
  · simp [Wrapped.posDeriv, h1]
  · exact ⟨h3.trans h.stream, h4.trans h.nones, h2, h.kw, h.kwNone⟩

omit [PyFloat F] in
theorem lookup_append_singleton {α : Type} (l : List (String × α)) (k name : String) (x : α)
    (h : l.lookup name = none) :
    (l ++ [(name, x)]).lookup k = if k = name then some x else l.lookup k := by
  induction l with
  | nil =>
    by_cases hk : k = name
    · subst hk; simp [List.lookup]
    · have : (k == name) = false := by simpa using hk
      simp [List.lookup, this, hk]
  | cons p l ih =>
    obtain ⟨m, y⟩ := p
    by_cases hm : name = m
    · subst hm; simp [List.lookup] at h
    · have hm' : (name == m) = false := by simpa using hm
      simp only [List.lookup, hm'] at h
      by_cases hk : k = m
      · subst hk
        have : ¬ k = name := fun e => hm e.symm
        simp [List.lookup, this]
      · have hk' : (k == m) = false := by simpa using hk
        simp [List.lookup, hk', ih h]

theorem Wrapped.kwDeriv_ok {wf : Wrapped F} (h : wf.OK) (name : String) :
    ∃ wf', wf.kwDeriv name = (wf', wf.df.specKw name) ∧ wf'.OK ∧ wf'.df = wf.df := by
  unfold Wrapped.kwDeriv
  cases hl : wf.kw.lookup name with
  | some d =>
    have := h.kw name d hl
    subst this
    exact ⟨wf, rfl, h, rfl⟩
  | none =>
    have hn := h.kwNone name hl
    refine ⟨{ wf with kw := wf.kw ++ [(name, partialDerivative wf.df.f (.kw name))] }, ?_, ?_, rfl⟩
    · simp only []; rw [hn]
    · refine ⟨h.stream, h.nones, h.iter, ?_, ?_⟩
      · intro k d hk
        rw [lookup_append_singleton _ _ _ _ hl] at hk
        by_cases hkn : k = name
        · subst hkn
          simp only [if_true, Option.some.injEq] at hk
          rw [← hk, ← hn]
        · simp only [hkn, if_false] at hk
          exact h.kw k d hk
      · intro k hk
        rw [lookup_append_singleton _ _ _ _ hl] at hk
        by_cases hkn : k = name
        · simp [hkn] at hk
        · simp only [hkn, if_false] at hk
          exact h.kwNone k hk

end Unc
