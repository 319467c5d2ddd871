import Verif.Lemmas.Wrap
import Verif.Spec.Effects

/-
Wrapped functions with side effects: the caches always hold the documented derivatives (idem `Lemmas/Wrap.lean`), and calls follow
the specification.
-/

namespace Unc

set_option autoImplicit false

section
variable {D : Type}

/-! ### EIter -/

/-- What the iterator must serve at each index. -/
def EIter.value (it : EIter D) (i : Nat) : Option D :=
  match it.stream i with
  | some d => some d
  | none => it.noneConverter i

/-- Invariant of `EIter`. -/
structure EIter.OK (it : EIter D) : Prop where
  taken : it.taken = it.returnedElements.length
  elems : ∀ i, i < it.returnedElements.length → it.returnedElements[i]? = some (it.value i)

theorem EIter.fetch_ok {it : EIter D} (h : it.OK) :
    (it.fetch it.returnedElements.length).OK ∧
    (it.fetch it.returnedElements.length).stream = it.stream ∧
    (it.fetch it.returnedElements.length).noneConverter = it.noneConverter ∧
    (it.fetch it.returnedElements.length).returnedElements.length =
      it.returnedElements.length + 1 := by
  refine ⟨⟨?_, ?_⟩, rfl, rfl, ?_⟩
  · simp [EIter.fetch, h.taken]
  · intro i hi
    simp only [EIter.fetch, List.length_append, List.length_singleton] at hi ⊢
    by_cases hlt : i < it.returnedElements.length
    · rw [List.getElem?_append_left hlt]; exact h.elems i hlt
    · have : i = it.returnedElements.length := by omega
      subst this
      simp only [List.getElem?_concat_length]
      simp only [EIter.value, h.taken]
      cases it.stream it.returnedElements.length <;> rfl
  · simp [EIter.fetch]

theorem EIter.fetchMany_ok (n : Nat) {it : EIter D} (h : it.OK) :
    (it.fetchMany it.returnedElements.length n).OK ∧
    (it.fetchMany it.returnedElements.length n).stream = it.stream ∧
    (it.fetchMany it.returnedElements.length n).noneConverter = it.noneConverter ∧
    (it.fetchMany it.returnedElements.length n).returnedElements.length =
      it.returnedElements.length + n := by
  induction n generalizing it with
  | zero => exact ⟨h, rfl, rfl, rfl⟩
  | succ n ih =>
    obtain ⟨h1, h2, h3, h4⟩ := EIter.fetch_ok h
    have := ih h1
    rw [h4] at this
    simp only [EIter.fetchMany]
    obtain ⟨a, b, c, d⟩ := this
    exact ⟨a, b.trans h2, c.trans h3, by rw [d]; omega⟩

/-- Indexing serves the right element, keeps the invariant, and takes from the iterator only what
is needed. -/
theorem EIter.getItem_ok {it : EIter D} (h : it.OK) (i : Nat) :
    ∃ it', it.getItem i = (it', .ok (it.value i)) ∧ it'.OK ∧ it'.stream = it.stream ∧
      it'.noneConverter = it.noneConverter ∧
      it'.returnedElements.length = max it.returnedElements.length (i + 1) := by
  unfold EIter.getItem
  by_cases hlt : i < it.returnedElements.length
  · rw [h.elems i hlt]
    exact ⟨it, rfl, h, rfl, rfl, by omega⟩
  · rw [List.getElem?_eq_none (by omega)]
    obtain ⟨a, b, c, d⟩ := EIter.fetchMany_ok (i + 1 - it.returnedElements.length) h
    have hlen : i < (it.fetchMany it.returnedElements.length
        (i + 1 - it.returnedElements.length)).returnedElements.length := by omega
    simp only [a.elems i hlen]
    refine ⟨_, ?_, a, b, c, by omega⟩
    simp [EIter.value, b, c]

theorem initKwargsE_lookup (num : ArgRef → D) (l : List (String × Option (D)))
    (kw : List (String × D)) (hl : (l.map Prod.fst).Nodup) (name : String) :
    (initKwargsE num l kw).lookup name =
      match l.lookup name with
      | some (some d) => some d
      | some none => some (num (.kw name))
      | none => kw.lookup name := by
  induction l generalizing kw with
  | nil => rfl
  | cons p l ih =>
    obtain ⟨k, o⟩ := p
    have hl' : (l.map Prod.fst).Nodup := (List.nodup_cons.mp hl).2
    have hk : k ∉ l.map Prod.fst := (List.nodup_cons.mp hl).1
    have hnone : l.lookup k = none := by
      rw [List.lookup_eq_none_iff]
      intro p hp
      simp only [beq_eq_false_iff_ne, ne_eq, bne_iff_ne]
      intro he
      exact hk (List.mem_map.mpr ⟨p, hp, he.symm⟩)
    by_cases h : name = k
    · subst h
      cases o <;> simp [initKwargsE, ih _ hl', hnone, lookup_setKw, List.lookup]
    · have h2 : (name == k) = false := by simpa using h
      cases o <;> simp [initKwargsE, ih _ hl', lookup_setKw, List.lookup, h2, h]

theorem initArgspecE_ok (num : ArgRef → D) (index : Nat) (names : List String) (it : EIter D)
    (kw : List (String × D)) (hn : names.Nodup) (hit : it.OK)
    (hnc : it.noneConverter = fun _ => none) :
    (initArgspecE num index names it kw).1.OK ∧
    (initArgspecE num index names it kw).1.stream = it.stream ∧
    (initArgspecE num index names it kw).1.noneConverter = (fun _ => none) ∧
    (∀ name, (initArgspecE num index names it kw).2.lookup name =
      match names.idxOf? name with
      | some i => some ((it.stream (index + i)).getD (num (.kw name)))
      | none => kw.lookup name) := by
  induction names generalizing index it kw with
  | nil => exact ⟨hit, rfl, hnc, fun name => by simp [initArgspecE]⟩
  | cons n names ih =>
    have hn' : names.Nodup := (List.nodup_cons.mp hn).2
    have hnn : n ∉ names := (List.nodup_cons.mp hn).1
    obtain ⟨it', h1, h2, h3, h4, -⟩ := EIter.getItem_ok hit index
    have hval : it.value index = it.stream index := by
      unfold EIter.value; rw [hnc]; cases it.stream index <;> rfl
    rw [hval] at h1
    have hidx : names.idxOf? n = none := by
      rw [List.idxOf?_eq_none_iff]; simpa using hnn
    have step : ∀ d : D, d = (it.stream index).getD (num (.kw n)) →
        initArgspecE num index (n :: names) it kw =
          initArgspecE num (index + 1) names it' (setKw kw n d) := by
      intro d hd
      subst hd
      simp only [initArgspecE, h1]
      cases it.stream index <;> rfl
    rw [step _ rfl]
    obtain ⟨a, b, c, e⟩ := ih (index + 1) it' (setKw kw n _) hn' h2 (h4.trans hnc)
    refine ⟨a, b.trans h3, c, ?_⟩
    intro name
    rw [e name, List.idxOf?_cons]
    by_cases hname : name = n
    · subst hname
      simp [hidx, lookup_setKw]
    · have : (n == name) = false := by simpa using fun h => hname h.symm
      simp only [this, lookup_setKw, hname, if_false]
      cases names.idxOf? name with
      | none => simp
      | some i =>
        simp only [Option.map_some, h3, Bool.false_eq_true, if_false]
        have : index + 1 + i = index + (i + 1) := by omega
        rw [this]

theorem convertNonesE_getElem (num : ArgRef → D) (index : Nat) (l : List (Option (D))) (i : Nat) :
    (convertNonesE num index l)[i]? =
      (l[i]?).map (fun o => some (o.getD (num (.pos (index + i))))) := by
  induction l generalizing index i with
  | nil => simp [convertNonesE]
  | cons o l ih =>
    have key : convertNonesE num index (o :: l) =
        some (o.getD (num (.pos index))) :: convertNonesE num (index + 1) l := by
      cases o <;> rfl
    rw [key]
    cases i with
    | zero => simp
    | succ i =>
      simp only [List.getElem?_cons_succ, ih]
      have : index + 1 + i = index + (i + 1) := by omega
      rw [this]

theorem convertNonesE_length (num : ArgRef → D) (index : Nat) (l : List (Option (D))) :
    (convertNonesE num index l).length = l.length := by
  induction l generalizing index with
  | nil => rfl
  | cons o l ih => cases o <;> simp [convertNonesE, ih]

end

/-! ### Wrapped functions -/

variable {S F : Type} [PyFloat F]

/-- The derivative to be called. -/
def EWrapDef.spec (df : EWrapDef S F) (r : ArgRef) : EDeriv S F :=
  match df.given r with
  | some (_, d) => d
  | none => partialDerivativeE df.f r

theorem EWrapDef.spec_pos (df : EWrapDef S F) (i : Nat) :
    df.spec (.pos i) = (df.derivativesArgs i).getD (partialDerivativeE df.f (.pos i)) := by
  unfold EWrapDef.spec EWrapDef.given
  cases h : df.derivativesArgs i <;> simp [h]

/-- Invariant of a wrapped function. -/
structure EWrapped.OK (wf : EWrapped S F) : Prop where
  stream : wf.iter.stream = wf.df.derivativesArgs
  nones : wf.iter.noneConverter = fun i => some (partialDerivativeE wf.df.f (.pos i))
  iter : wf.iter.OK
  kw : ∀ name d, wf.kw.lookup name = some d → d = wf.df.spec (.kw name)
  kwNone : ∀ name, wf.kw.lookup name = none → wf.df.spec (.kw name) = partialDerivativeE wf.df.f (.kw name)

theorem EWrapped.OK.value {wf : EWrapped S F} (h : wf.OK) (i : Nat) :
    wf.iter.value i = some (wf.df.spec (.pos i)) := by
  unfold EIter.value
  rw [h.stream, h.nones, EWrapDef.spec_pos]
  cases wf.df.derivativesArgs i <;> rfl

theorem mkWrappedE_ok (df : EWrapDef S F) : (mkWrappedE df).OK := by
  have hit0 : (EIter.mk' df.derivativesArgs).OK := ⟨rfl, fun i hi => by simp [EIter.mk'] at hi⟩
  have hkw0 : ∀ name, (initKwargsE (partialDerivativeE df.f) df.derivativesKwargs []).lookup name =
      match df.derivativesKwargs.lookup name with
      | some (some d) => some d
      | some none => some (partialDerivativeE df.f (.kw name))
      | none => none := by
    intro name
    rw [initKwargsE_lookup _ _ _ df.kwargsNodup]
    cases df.derivativesKwargs.lookup name with
    | none => rfl
    | some o => cases o <;> rfl
  have finish : ∀ (it : EIter (EDeriv S F)) (kw : List (String × EDeriv S F)), it.OK →
      it.stream = df.derivativesArgs → it.noneConverter = (fun _ => none) →
      (∀ name d, kw.lookup name = some d → d = df.spec (.kw name)) →
      (∀ name, kw.lookup name = none → df.spec (.kw name) = partialDerivativeE df.f (.kw name)) →
      EWrapped.OK { df := df, iter := { it with
          returnedElements := convertNonesE (partialDerivativeE df.f) 0 it.returnedElements
          noneConverter := fun index => some (partialDerivativeE df.f (.pos index)) }, kw := kw } := by
    intro it kw hok hs hn hk1 hk2
    refine ⟨hs, rfl, ⟨?_, ?_⟩, hk1, hk2⟩
    · simp [convertNonesE_length, hok.taken]
    · intro i hi
      simp only [convertNonesE_length] at hi
      simp only [convertNonesE_getElem, hok.elems i hi, Option.map_some, Nat.zero_add]
      simp only [EIter.value, hn]
      cases it.stream i <;> rfl
  unfold mkWrappedE
  cases hspec : df.argspec with
  | none =>
    apply finish _ _ hit0 rfl rfl
    · intro name d hd
      rw [hkw0] at hd
      simp only [EWrapDef.spec, EWrapDef.given, hspec, Option.getD_none, List.idxOf?_nil]
      cases hl : df.derivativesKwargs.lookup name with
      | none => simp [hl] at hd
      | some o => cases o <;> simp_all
    · intro name hd
      rw [hkw0] at hd
      simp only [EWrapDef.spec, EWrapDef.given, hspec, Option.getD_none, List.idxOf?_nil]
      cases hl : df.derivativesKwargs.lookup name with
      | none => rfl
      | some o => cases o <;> simp_all
  | some names =>
    obtain ⟨a, b, c, e⟩ := initArgspecE_ok (partialDerivativeE df.f) 0 names _
      (initKwargsE (partialDerivativeE df.f) df.derivativesKwargs []) (df.argspecNodup names hspec) hit0 rfl
    apply finish _ _ a b c
    · intro name d hd
      rw [e name] at hd
      simp only [EWrapDef.spec, EWrapDef.given, hspec, Option.getD_some]
      cases hi : names.idxOf? name with
      | some i =>
        simp only [hi, Option.some.injEq] at hd
        rw [← hd]
        simp only [EIter.mk', Nat.zero_add]
        cases df.derivativesArgs i <;> rfl
      | none =>
        simp only [hi] at hd
        rw [hkw0] at hd
        cases hl : df.derivativesKwargs.lookup name with
        | none => simp [hl] at hd
        | some o => cases o <;> simp_all
    · intro name hd
      rw [e name] at hd
      simp only [EWrapDef.spec, EWrapDef.given, hspec, Option.getD_some]
      cases hi : names.idxOf? name with
      | some i => simp [hi] at hd
      | none =>
        simp only [hi] at hd
        rw [hkw0] at hd
        cases hl : df.derivativesKwargs.lookup name with
        | none => rfl
        | some o => cases o <;> simp_all

theorem mkWrappedE_df (df : EWrapDef S F) : (mkWrappedE df).df = df := by
  unfold mkWrappedE; cases df.argspec <;> rfl

theorem EWrapped.posDeriv_ok {wf : EWrapped S F} (h : wf.OK) (pos : Nat) :
    ∃ wf', wf.posDeriv pos = (wf', .ok (wf.df.spec (.pos pos))) ∧ wf'.OK ∧ wf'.df = wf.df := by
  obtain ⟨it', h1, h2, h3, h4, -⟩ := EIter.getItem_ok h.iter pos
  rw [h.value] at h1
  refine ⟨{ wf with iter := it' }, ?_, ?_, rfl⟩
  · simp [EWrapped.posDeriv, h1]
  · exact ⟨h3.trans h.stream, h4.trans h.nones, h2, h.kw, h.kwNone⟩

theorem EWrapped.kwDeriv_ok {wf : EWrapped S F} (h : wf.OK) (name : String) :
    ∃ wf', wf.kwDeriv name = (wf', wf.df.spec (.kw name)) ∧ wf'.OK ∧ wf'.df = wf.df := by
  unfold EWrapped.kwDeriv
  cases hl : wf.kw.lookup name with
  | some d =>
    have := h.kw name d hl
    subst this
    exact ⟨wf, rfl, h, rfl⟩
  | none =>
    have hn := h.kwNone name hl
    refine ⟨{ wf with kw := wf.kw ++ [(name, partialDerivativeE wf.df.f (.kw name))] }, ?_, ?_, rfl⟩
    · simp only []; rw [hn]
    · refine ⟨h.stream, h.nones, h.iter, ?_, ?_⟩
      · intro k d hk
        rw [lookup_append_singleton _ _ _ _ hl] at hk
        by_cases hkn : k = name
        · subst hkn
          simp only [if_true, Option.some.injEq] at hk
          rw [← hk, hn]
        · simp only [hkn, if_false] at hk
          exact h.kw k d hk
      · intro k hk
        rw [lookup_append_singleton _ _ _ _ hl] at hk
        by_cases hkn : k = name
        · simp [hkn] at hk
        · simp only [hkn, if_false] at hk
          exact h.kwNone k hk

/-! ### Calls -/

/-- The terms of a list of arguments, in order. -/
def termsFrom (df : EWrapDef S F) (a : List (PyVal F)) (k : KwArgs F) (l : List (ArgRef × UF F)) : S → S × PyRes (List (UF F × F)) :=
  inOrder (l.map fun p => (p.2, df.spec p.1 a k))

/-- Positional arguments with an uncertainty, numbered from `i`. -/
def uncPos : Nat → List (Val F) → List (ArgRef × UF F)
  | _, [] => []
  | i, .plain _ :: rest => uncPos (i + 1) rest
  | i, .unc u :: rest => (.pos i, u) :: uncPos (i + 1) rest

def uncKw : List (String × Val F) → List (ArgRef × UF F)
  | [] => []
  | (_, .plain _) :: rest => uncKw rest
  | (name, .unc u) :: rest => (.kw name, u) :: uncKw rest

omit [PyFloat F] in
theorem uncPos_eq (i : Nat) (args : List (Val F)) : uncPos i args = (args.zipIdx i).filterMap (fun
    | (.unc u, i) => some (.pos i, u)
    | (.plain _, _) => none) := by
  induction args generalizing i with
  | nil => rfl
  | cons a args ih => cases a <;> simp [uncPos, List.zipIdx_cons, List.filterMap_cons, ih]

omit [PyFloat F] in
theorem uncKw_eq (kw : List (String × Val F)) : uncKw kw = kw.filterMap (fun
    | (name, .unc u) => some (.kw name, u)
    | (_, .plain _) => none) := by
  induction kw with
  | nil => rfl
  | cons p kw ih =>
    obtain ⟨n, v⟩ := p
    cases v <;> simp [uncKw, List.filterMap_cons, ih]

omit [PyFloat F] in
theorem uncertainArgs_eq (args : List (Val F)) (kw : List (String × Val F)) :
    uncertainArgs args kw = uncPos 0 args ++ uncKw kw := by
  rw [uncPos_eq, uncKw_eq]; rfl

omit [PyFloat F] in
theorem inOrder_append {α β : Type} (l1 l2 : List (α × (S → S × PyRes β))) (s : S) :
    inOrder (l1 ++ l2) s =
      match inOrder l1 s with
      | (s1, .error e) => (s1, .error e)
      | (s1, .ok r1) =>
        match inOrder l2 s1 with
        | (s2, .error e) => (s2, .error e)
        | (s2, .ok r2) => (s2, .ok (r1 ++ r2)) := by
  induction l1 generalizing s with
  | nil => rcases h : inOrder l2 s with ⟨s2, _ | _⟩ <;> simp [inOrder, h]
  | cons p l1 ih =>
    obtain ⟨a, g⟩ := p
    rcases h : g s with ⟨s1, e | b⟩
    · simp [inOrder, h]
    · simp only [List.cons_append, inOrder, h, ih]
      rcases h1 : inOrder l1 s1 with ⟨s2, e | b1⟩
      · rfl
      · simp only []
        rcases h2 : inOrder l2 s2 with ⟨s3, e | b2⟩ <;> rfl

theorem posTermsE_ok {wf : EWrapped S F} (h : wf.OK) (a : List (PyVal F)) (k : KwArgs F) (i : Nat) (args : List (Val F)) (s : S)
    (acc : List (Item F)) :
    ∃ wf', wf'.OK ∧ wf'.df = wf.df ∧ posTermsE a k i args wf s acc =
      match termsFrom wf.df a k (uncPos i args) s with
      | (s1, .error e) => (wf', s1, .error e)
      | (s1, .ok l) => (wf', s1, .ok (termsOf l ++ acc)) := by
  induction args generalizing i wf s acc with
  | nil => exact ⟨wf, h, rfl, rfl⟩
  | cons v args ih =>
    cases v with
    | plain v => exact ih h (i + 1) s acc
    | unc u =>
      obtain ⟨wf1, h1, h2, h3⟩ := EWrapped.posDeriv_ok h i
      simp only [posTermsE, h1, uncPos, termsFrom, List.map_cons, inOrder]
      rcases hd : wf.df.spec (.pos i) a k s with ⟨s1, e | c⟩
      · exact ⟨wf1, h2, h3, rfl⟩
      · obtain ⟨wf2, a1, a2, a3⟩ := ih h2 (i + 1) s1 (.pair c u.lin :: acc)
        refine ⟨wf2, a1, a2.trans h3, ?_⟩
        simp only [a3, h3, termsFrom]
        rcases hr : inOrder ((uncPos (i + 1) args).map fun p => (p.2, wf.df.spec p.1 a k)) s1 with ⟨s2, e | l⟩
        · simp only [hr]
        · simp [hr, termsOf]

theorem kwTermsE_ok {wf : EWrapped S F} (h : wf.OK) (a : List (PyVal F)) (k : KwArgs F) (kwargs : List (String × Val F)) (s : S)
    (acc : List (Item F)) :
    ∃ wf', wf'.OK ∧ wf'.df = wf.df ∧ kwTermsE a k kwargs wf s acc =
      match termsFrom wf.df a k (uncKw kwargs) s with
      | (s1, .error e) => (wf', s1, .error e)
      | (s1, .ok l) => (wf', s1, .ok (termsOf l ++ acc)) := by
  induction kwargs generalizing wf s acc with
  | nil => exact ⟨wf, h, rfl, rfl⟩
  | cons p kwargs ih =>
    obtain ⟨name, v⟩ := p
    cases v with
    | plain v => exact ih h s acc
    | unc u =>
      obtain ⟨wf1, h1, h2, h3⟩ := EWrapped.kwDeriv_ok h name
      simp only [kwTermsE, h1, uncKw, termsFrom, List.map_cons, inOrder]
      rcases hd : wf.df.spec (.kw name) a k s with ⟨s1, e | c⟩
      · exact ⟨wf1, h2, h3, rfl⟩
      · obtain ⟨wf2, a1, a2, a3⟩ := ih h2 s1 (.pair c u.lin :: acc)
        refine ⟨wf2, a1, a2.trans h3, ?_⟩
        simp only [a3, h3, termsFrom]
        rcases hr : inOrder ((uncKw kwargs).map fun p => (p.2, wf.df.spec p.1 a k)) s1 with ⟨s2, e | l⟩
        · simp only [hr]
        · simp [hr, termsOf]

omit [PyFloat F] in
theorem uncPos_mem (i : Nat) (args : List (Val F)) (r : ArgRef) (u : UF F) (h : (r, u) ∈ uncPos i args) :
    ∃ j, r = .pos (i + j) ∧ args[j]? = some (.unc u) := by
  induction args generalizing i with
  | nil => cases h
  | cons v args ih =>
    cases v with
    | plain v =>
      obtain ⟨j, h1, h2⟩ := ih (i + 1) h
      exact ⟨j + 1, by rw [h1]; congr 1; omega, h2⟩
    | unc w =>
      rcases List.mem_cons.1 h with h | h
      · cases h; exact ⟨0, rfl, rfl⟩
      · obtain ⟨j, h1, h2⟩ := ih (i + 1) h
        exact ⟨j + 1, by rw [h1]; congr 1; omega, h2⟩

omit [PyFloat F] in
theorem uncKw_mem (kw : List (String × Val F)) (r : ArgRef) (u : UF F) (h : (r, u) ∈ uncKw kw) :
    ∃ name, r = .kw name ∧ (name, .unc u) ∈ kw := by
  induction kw with
  | nil => cases h
  | cons p kw ih =>
    obtain ⟨n, v⟩ := p
    cases v with
    | plain v =>
      obtain ⟨m, h1, h2⟩ := ih h
      exact ⟨m, h1, List.mem_cons_of_mem _ h2⟩
    | unc w =>
      rcases List.mem_cons.1 h with h | h
      · cases h; exact ⟨n, rfl, List.mem_cons_self⟩
      · obtain ⟨m, h1, h2⟩ := ih h
        exact ⟨m, h1, List.mem_cons_of_mem _ h2⟩

omit [PyFloat F] in
theorem kwargs_lookup_of_mem {α : Type} (l : List (String × α)) (h : (l.map Prod.fst).Nodup) (n : String) (x : α) (hm : (n, x) ∈ l) :
    l.lookup n = some x := by
  induction l with
  | nil => cases hm
  | cons p l ih =>
    obtain ⟨m, y⟩ := p
    rcases List.mem_cons.1 hm with hm1 | hm1
    · cases hm1; simp [List.lookup]
    · have hne : n ≠ m := by
        rintro rfl
        exact (List.nodup_cons.1 h).1 (List.mem_map.2 ⟨(n, x), hm1, rfl⟩)
      have : (n == m) = false := by simpa using hne
      simp [List.lookup, this, ih (List.nodup_cons.1 h).2 hm1]

/-- The derivative is the documented one. -/
theorem spec_derivValue (df : EWrapDef S F) (args : List (Val F)) (kwargs : List (String × Val F))
    (hk : (kwargs.map Prod.fst).Nodup) (r : ArgRef) (u : UF F) (h : (r, u) ∈ uncertainArgs args kwargs) :
    df.spec r (args.map Val.nominal) (kwargs.map fun p => (p.1, p.2.nominal)) =
      derivValue df (args.map Val.nominal) (kwargs.map fun p => (p.1, p.2.nominal)) r u.nom := by
  unfold EWrapDef.spec derivValue
  cases df.given r with
  | some p => rfl
  | none =>
    simp only []
    rw [uncertainArgs_eq] at h
    rcases List.mem_append.1 h with h | h
    · obtain ⟨j, rfl, h2⟩ := uncPos_mem _ _ _ _ h
      funext s
      simp only [partialDerivativeE, Nat.zero_add, List.getElem?_map, h2, Option.map_some, Val.nominal, withArg]
    · obtain ⟨n, rfl, h2⟩ := uncKw_mem _ _ _ h
      funext s
      have hl : (kwargs.map fun p => (p.1, p.2.nominal)).lookup n = some (.flt u.nom) := by
        refine kwargs_lookup_of_mem _ ?_ _ _ (List.mem_map.2 ⟨_, h2, rfl⟩)
        simpa [Function.comp_def] using hk
      simp only [partialDerivativeE, hl, withArg]

omit [PyFloat F] in
theorem noUnc_iff (args : List (Val F)) (kwargs : List (String × Val F)) :
    (args.all (fun a => !a.isUnc) && kwargs.all (fun p => !p.2.isUnc)) = (uncertainArgs args kwargs).isEmpty := by
  rw [uncertainArgs_eq]
  have h1 : ∀ i, args.all (fun a => !a.isUnc) = (uncPos i args).isEmpty := by
    induction args with
    | nil => intro i; rfl
    | cons v args ih => intro i; cases v <;> simp [uncPos, Val.isUnc, ← ih (i + 1)]
  have h2 : kwargs.all (fun p => !p.2.isUnc) = (uncKw kwargs).isEmpty := by
    induction kwargs with
    | nil => rfl
    | cons p kw ih => obtain ⟨n, v⟩ := p; cases v <;> simp [uncKw, Val.isUnc, ← ih]
  rw [h1 0, h2]
  cases uncPos 0 args <;> simp

/-- What the model returns for a documented result. -/
def modelResult : PyVal F ⊕ (F × List (UF F × F)) → PyVal F ⊕ (F × List (Item F))
  | .inl v => .inl v
  | .inr (x, l) => .inr (x, termsOf l)

theorem callE_ok {wf : EWrapped S F} (h : wf.OK) (args : List (Val F)) (kwargs : List (String × Val F))
    (hk : (kwargs.map Prod.fst).Nodup) (s : S) :
    ∃ wf', wf'.OK ∧ wf'.df = wf.df ∧ callE wf args kwargs s =
      (wf', (documentedCall wf.df args kwargs s).1, (documentedCall wf.df args kwargs s).2.map modelResult) := by
  have hmap : ((uncertainArgs args kwargs).map fun p => (p.2, derivValue wf.df (args.map Val.nominal)
        (kwargs.map fun p => (p.1, p.2.nominal)) p.1 p.2.nom)) =
      (uncPos 0 args).map (fun p => (p.2, wf.df.spec p.1 (args.map Val.nominal) (kwargs.map fun p => (p.1, p.2.nominal)))) ++
      (uncKw kwargs).map (fun p => (p.2, wf.df.spec p.1 (args.map Val.nominal) (kwargs.map fun p => (p.1, p.2.nominal)))) := by
    rw [← List.map_append, ← uncertainArgs_eq]
    refine List.map_congr_left fun p hp => ?_
    rw [spec_derivValue wf.df args kwargs hk p.1 p.2 hp]
  unfold callE documentedCall
  simp only [noUnc_iff, hmap, inOrder_append]
  rcases hf : wf.df.f (args.map Val.nominal) (kwargs.map fun p => (p.1, p.2.nominal)) s with ⟨s1, e | v⟩
  · simp only [hf]
    exact ⟨wf, h, rfl, by split <;> rfl⟩
  simp only [hf]
  by_cases he : (uncertainArgs args kwargs).isEmpty = true
  · simp only [he, if_true]
    exact ⟨wf, h, rfl, rfl⟩
  simp only [he, if_false, Bool.false_eq_true]
  by_cases hv : v.floatLike = true
  swap
  · simp only [hv]
    exact ⟨wf, h, rfl, rfl⟩
  simp only [hv, Bool.not_true, if_false, Bool.false_eq_true]
  obtain ⟨wf1, a1, a2, a3⟩ := posTermsE_ok h (args.map Val.nominal) (kwargs.map fun p => (p.1, p.2.nominal)) 0 args s1 []
  rw [a3, termsFrom]
  rcases h1 : inOrder ((uncPos 0 args).map fun p => (p.2, wf.df.spec p.1 (args.map Val.nominal)
    (kwargs.map fun p => (p.1, p.2.nominal)))) s1 with ⟨s2, e | l1⟩
  · exact ⟨wf1, a1, a2, by simp only [h1]; rfl⟩
  simp only [h1]
  obtain ⟨wf2, b1, b2, b3⟩ := kwTermsE_ok a1 (args.map Val.nominal) (kwargs.map fun p => (p.1, p.2.nominal)) kwargs s2
    (termsOf l1 ++ [])
  rw [b3, termsFrom, a2]
  rcases h2 : inOrder ((uncKw kwargs).map fun p => (p.2, wf.df.spec p.1 (args.map Val.nominal)
    (kwargs.map fun p => (p.1, p.2.nominal)))) s2 with ⟨s3, e | l2⟩
  · exact ⟨wf2, b1, b2.trans a2, by simp only [h2]; rfl⟩
  refine ⟨wf2, b1, b2.trans a2, ?_⟩
  simp only [h2]
  cases v.toFloat with
  | error e => rfl
  | ok x => simp [Except.map, modelResult, termsOf]

theorem callsE_ok (cs : List ((List (Val F) × List (String × Val F)) × S)) {wf : EWrapped S F} (h : wf.OK)
    (hk : ∀ c ∈ cs, (c.1.2.map Prod.fst).Nodup) : (callsE cs wf).OK ∧ (callsE cs wf).df = wf.df := by
  induction cs generalizing wf with
  | nil => exact ⟨h, rfl⟩
  | cons c cs ih =>
    obtain ⟨wf1, a1, a2, a3⟩ := callE_ok h c.1.1 c.1.2 (hk c List.mem_cons_self) c.2
    have := ih (wf := (callE wf c.1.1 c.1.2 c.2).1) (by rw [a3]; exact a1) fun c' hc' => hk c' (List.mem_cons_of_mem _ hc')
    refine ⟨this.1, this.2.trans ?_⟩
    rw [a3]; exact a2

end Unc
