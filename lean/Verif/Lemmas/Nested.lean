import Verif.Lemmas.Effects
import Verif.Spec.Nested

/-
Wrapped functions called inside wrapped functions: the caches always hold the documented derivatives (idem `Lemmas/Effects.lean`), also
when they are changed in the middle of a call, and calls follow the specification.
-/

namespace Unc

set_option autoImplicit false

variable {S F : Type} [PyFloat F]

omit [PyFloat F] in
/-- The derivative given by the user (see `EWrapDef.given`). -/
def PWrapDef.given (df : PWrapDef S F) : ArgRef → Option (ArgRef × PDeriv S F)
  | .pos i => (df.derivativesArgs i).map fun d => (.pos i, d)
  | .kw name =>
    match (df.argspec.getD []).idxOf? name with
    | some i => (df.derivativesArgs i).map fun d => (.pos i, d)
    | none => ((df.derivativesKwargs.lookup name).getD none).map fun d => (.kw name, d)

/-- The derivative to be called. -/
def PWrapDef.spec (df : PWrapDef S F) (r : ArgRef) : PDeriv S F :=
  match df.given r with
  | some (_, d) => d
  | none => partialDerivativeP df.f r

theorem PWrapDef.spec_pos (df : PWrapDef S F) (i : Nat) :
    df.spec (.pos i) = (df.derivativesArgs i).getD (partialDerivativeP df.f (.pos i)) := by
  unfold PWrapDef.spec PWrapDef.given
  cases h : df.derivativesArgs i <;> simp [h]

/-- Invariant of a wrapped function. -/
structure PWrapped.OK (wf : PWrapped S F) : Prop where
  stream : wf.iter.stream = wf.df.derivativesArgs
  nones : wf.iter.noneConverter = fun i => some (partialDerivativeP wf.df.f (.pos i))
  iter : wf.iter.OK
  kw : ∀ name d, wf.kw.lookup name = some d → d = wf.df.spec (.kw name)
  kwNone : ∀ name, wf.kw.lookup name = none → wf.df.spec (.kw name) = partialDerivativeP wf.df.f (.kw name)

theorem PWrapped.OK.value {wf : PWrapped S F} (h : wf.OK) (i : Nat) :
    wf.iter.value i = some (wf.df.spec (.pos i)) := by
  unfold EIter.value
  rw [h.stream, h.nones, PWrapDef.spec_pos]
  cases wf.df.derivativesArgs i <;> rfl

theorem mkWrappedP_ok (df : PWrapDef S F) : (mkWrappedP df).OK := by
  have hit0 : (EIter.mk' df.derivativesArgs).OK := ⟨rfl, fun i hi => by simp [EIter.mk'] at hi⟩
  have hkw0 : ∀ name, (initKwargsE (partialDerivativeP df.f) df.derivativesKwargs []).lookup name =
      match df.derivativesKwargs.lookup name with
      | some (some d) => some d
      | some none => some (partialDerivativeP df.f (.kw name))
      | none => none := by
    intro name
    rw [initKwargsE_lookup _ _ _ df.kwargsNodup]
    cases df.derivativesKwargs.lookup name with
    | none => rfl
    | some o => cases o <;> rfl
  have finish : ∀ (it : EIter (PDeriv S F)) (kw : List (String × PDeriv S F)), it.OK →
      it.stream = df.derivativesArgs → it.noneConverter = (fun _ => none) →
      (∀ name d, kw.lookup name = some d → d = df.spec (.kw name)) →
      (∀ name, kw.lookup name = none → df.spec (.kw name) = partialDerivativeP df.f (.kw name)) →
      PWrapped.OK { df := df, iter := { it with
          returnedElements := convertNonesE (partialDerivativeP df.f) 0 it.returnedElements
          noneConverter := fun index => some (partialDerivativeP df.f (.pos index)) }, kw := kw } := by
    intro it kw hok hs hn hk1 hk2
    refine ⟨hs, rfl, ⟨?_, ?_⟩, hk1, hk2⟩
    · simp [convertNonesE_length, hok.taken]
    · intro i hi
      simp only [convertNonesE_length] at hi
      simp only [convertNonesE_getElem, hok.elems i hi, Option.map_some, Nat.zero_add]
      simp only [EIter.value, hn]
      cases it.stream i <;> rfl
  unfold mkWrappedP
  cases hspec : df.argspec with
  | none =>
    apply finish _ _ hit0 rfl rfl
    · intro name d hd
      rw [hkw0] at hd
      simp only [PWrapDef.spec, PWrapDef.given, hspec, Option.getD_none, List.idxOf?_nil]
      cases hl : df.derivativesKwargs.lookup name with
      | none => simp [hl] at hd
      | some o => cases o <;> simp_all
    · intro name hd
      rw [hkw0] at hd
      simp only [PWrapDef.spec, PWrapDef.given, hspec, Option.getD_none, List.idxOf?_nil]
      cases hl : df.derivativesKwargs.lookup name with
      | none => rfl
      | some o => cases o <;> simp_all
  | some names =>
    obtain ⟨a, b, c, e⟩ := initArgspecE_ok (partialDerivativeP df.f) 0 names _
      (initKwargsE (partialDerivativeP df.f) df.derivativesKwargs []) (df.argspecNodup names hspec) hit0 rfl
    apply finish _ _ a b c
    · intro name d hd
      rw [e name] at hd
      simp only [PWrapDef.spec, PWrapDef.given, hspec, Option.getD_some]
      cases hi : names.idxOf? name with
      | some i =>
        simp only [hi, Option.some.injEq] at hd
        rw [← hd]
        simp only [EIter.mk', Nat.zero_add]
        cases df.derivativesArgs i <;> rfl
      | none =>
        simp only [hi] at hd
        rw [hkw0] at hd
        cases hl : df.derivativesKwargs.lookup name with
        | none => simp [hl] at hd
        | some o => cases o <;> simp_all
    · intro name hd
      rw [e name] at hd
      simp only [PWrapDef.spec, PWrapDef.given, hspec, Option.getD_some]
      cases hi : names.idxOf? name with
      | some i => simp [hi] at hd
      | none =>
        simp only [hi] at hd
        rw [hkw0] at hd
        cases hl : df.derivativesKwargs.lookup name with
        | none => rfl
        | some o => cases o <;> simp_all

theorem mkWrappedP_df (df : PWrapDef S F) : (mkWrappedP df).df = df := by
  unfold mkWrappedP; cases df.argspec <;> rfl

theorem PWrapped.posDeriv_ok {wf : PWrapped S F} (h : wf.OK) (pos : Nat) :
    ∃ wf', wf.posDeriv pos = (wf', .ok (wf.df.spec (.pos pos))) ∧ wf'.OK ∧ wf'.df = wf.df := by
  obtain ⟨it', h1, h2, h3, h4, -⟩ := EIter.getItem_ok h.iter pos
  rw [h.value] at h1
  refine ⟨{ wf with iter := it' }, ?_, ?_, rfl⟩
  · simp [PWrapped.posDeriv, h1]
  · exact ⟨h3.trans h.stream, h4.trans h.nones, h2, h.kw, h.kwNone⟩

theorem PWrapped.kwDeriv_ok {wf : PWrapped S F} (h : wf.OK) (name : String) :
    ∃ wf', wf.kwDeriv name = (wf', wf.df.spec (.kw name)) ∧ wf'.OK ∧ wf'.df = wf.df := by
  unfold PWrapped.kwDeriv
  cases hl : wf.kw.lookup name with
  | some d =>
    have := h.kw name d hl
    subst this
    exact ⟨wf, rfl, h, rfl⟩
  | none =>
    have hn := h.kwNone name hl
    refine ⟨{ wf with kw := wf.kw ++ [(name, partialDerivativeP wf.df.f (.kw name))] }, ?_, ?_, rfl⟩
    · simp only []; rw [hn]
    · refine ⟨h.stream, h.nones, h.iter, ?_, ?_⟩
      · intro k d hk
        rw [lookup_append_singleton _ _ _ _ hl] at hk
        by_cases hkn : k = name
        · subst hkn
          simp only [if_true, Option.some.injEq] at hk
          rw [← hk, hn]
        · simp only [hkn, if_false] at hk
          exact h.kw k d hk
      · intro k hk
        rw [lookup_append_singleton _ _ _ _ hl] at hk
        by_cases hkn : k = name
        · simp [hkn] at hk
        · simp only [hkn, if_false] at hk
          exact h.kwNone k hk

/-! ### Programs -/

/-- How calls are documented. -/
abbrev SpecCall (S F : Type) := Nat → List (Val F) → List (String × Val F) → S → S × CallResult F

omit [PyFloat F] in
theorem Prog.bind_meaning {α β : Type} (call : SpecCall S F) (p : Prog S F α) (q : α → Prog S F β) (s : S) :
    (p.bind q).meaning call s =
      match p.meaning call s with
      | (s1, .error e) => (s1, .error e)
      | (s1, .ok a) => (q a).meaning call s1 := by
  induction p generalizing s with
  | ret r => cases r <;> rfl
  | get k ih => exact ih s s
  | put s' k ih => exact ih s'
  | call j a kw nd k ih => exact ih _ _

theorem shiftedCallsP_meaning (call : SpecCall S F) (f : PFn S F) (plus minus : List (PyVal F) × KwArgs F) (step : F) (s : S) :
    (shiftedCallsP f plus minus step).meaning call s =
      shiftedCalls (fun a k s => (f a k).meaning call s) plus minus step s := by
  unfold shiftedCallsP shiftedCalls
  rw [Prog.bind_meaning]
  rcases h : (f plus.1 plus.2).meaning call s with ⟨s1, e | v⟩
  · simp only [h]
  · simp only [h, Prog.bind_meaning]
    rcases h2 : (f minus.1 minus.2).meaning call s1 with ⟨s2, e | v2⟩ <;> simp only [h2] <;> rfl

theorem partialDerivativeP_meaning (call : SpecCall S F) (f : PFn S F) (r : ArgRef) (a : List (PyVal F)) (k : KwArgs F) (s : S) :
    (partialDerivativeP f r a k).meaning call s = partialDerivativeE (fun a k s => (f a k).meaning call s) r a k s := by
  cases r with
  | pos i =>
    simp only [partialDerivativeP, partialDerivativeE]
    rcases a[i]? with _ | v
    · rfl
    · cases v <;> first | rfl | exact shiftedCallsP_meaning _ _ _ _ _ _
  | kw n =>
    simp only [partialDerivativeP, partialDerivativeE]
    rcases k.lookup n with _ | v
    · rfl
    · cases v <;> first | rfl | exact shiftedCallsP_meaning _ _ _ _ _ _

omit [PyFloat F] in
theorem lookup_mapValues {α β : Type} (g : α → β) (l : List (String × α)) (n : String) :
    (l.map fun p => (p.1, g p.2)).lookup n = (l.lookup n).map g := by
  induction l with
  | nil => rfl
  | cons p l ih =>
    obtain ⟨m, x⟩ := p
    by_cases h : n == m <;> simp [List.lookup, h, ih]

theorem PWrapDef.spec_meaning (call : SpecCall S F) (df : PWrapDef S F) (r : ArgRef) (a : List (PyVal F)) (k : KwArgs F) (s : S) :
    (df.spec r a k).meaning call s = (df.meaning call).spec r a k s := by
  have hg : (df.meaning call).given r = (df.given r).map fun p => (p.1, fun a k s => (p.2 a k).meaning call s) := by
    cases r with
    | pos i => simp only [EWrapDef.given, PWrapDef.given, PWrapDef.meaning, Option.map_map]; rfl
    | kw n =>
      simp only [EWrapDef.given, PWrapDef.given, PWrapDef.meaning]
      rcases (df.argspec.getD []).idxOf? n with _ | i
      · simp only []
        rw [lookup_mapValues (fun o : Option (PDeriv S F) => o.map fun d a k s => (d a k).meaning call s)]
        rcases df.derivativesKwargs.lookup n with _ | _ | d <;> rfl
      · simp only [Option.map_map]; rfl
  unfold PWrapDef.spec EWrapDef.spec
  rw [hg]
  rcases df.given r with _ | ⟨p, d⟩
  · exact partialDerivativeP_meaning call df.f r a k s
  · rfl

/-- Invariant of the wrapped functions. -/
def Closures.OK (dfs : Nat → PWrapDef S F) (w : Closures S F) : Prop := ∀ j, (w j).OK ∧ (w j).df = dfs j

/-- Calls do what is documented, and keep the invariant. -/
def NestedFollows (dfs : Nat → PWrapDef S F) (call : NestedCall S F) (spec : SpecCall S F) : Prop :=
  ∀ j args kwargs, (kwargs.map Prod.fst).Nodup → ∀ w s, Closures.OK dfs w →
    ∃ w', Closures.OK dfs w' ∧ call j args kwargs w s = (w', spec j args kwargs s)

theorem Closures.OK.set {dfs : Nat → PWrapDef S F} {w : Closures S F} (h : w.OK dfs) (j : Nat) (wf : PWrapped S F)
    (h1 : wf.OK) (h2 : wf.df = dfs j) : (w.set j wf).OK dfs := by
  intro i
  unfold Closures.set
  by_cases hi : i = j
  · subst hi; simp [h1, h2]
  · simpa [hi] using h i

theorem Prog.run_ok {α : Type} {dfs : Nat → PWrapDef S F} {call : NestedCall S F} {spec : SpecCall S F} (hc : NestedFollows dfs call spec)
    (p : Prog S F α) {w : Closures S F} (hw : w.OK dfs) (s : S) :
    ∃ w', Closures.OK dfs w' ∧ p.run call w s = (w', p.meaning spec s) := by
  induction p generalizing w s with
  | ret r => exact ⟨w, hw, rfl⟩
  | get k ih => exact ih s hw s
  | put s' k ih => exact ih hw s'
  | call j a kw nd k ih =>
    obtain ⟨w1, h1, h2⟩ := hc j a kw nd w s hw
    obtain ⟨w2, h3, h4⟩ := ih (spec j a kw s).2 h1 (spec j a kw s).1
    refine ⟨w2, h3, ?_⟩
    simp only [Prog.run, h2, Prog.meaning]
    exact h4

theorem posTermsP_ok {dfs : Nat → PWrapDef S F} {call : NestedCall S F} {spec : SpecCall S F} (hc : NestedFollows dfs call spec) (j : Nat)
    {w : Closures S F} (h : w.OK dfs) (a : List (PyVal F)) (k : KwArgs F) (i : Nat) (args : List (Val F)) (s : S)
    (acc : List (Item F)) :
    ∃ w', Closures.OK dfs w' ∧ posTermsP call j a k i args w s acc =
      match termsFrom ((dfs j).meaning spec) a k (uncPos i args) s with
      | (s1, .error e) => (w', s1, .error e)
      | (s1, .ok l) => (w', s1, .ok (termsOf l ++ acc)) := by
  induction args generalizing i w s acc with
  | nil => exact ⟨w, h, rfl⟩
  | cons v args ih =>
    cases v with
    | plain v => exact ih h (i + 1) s acc
    | unc u =>
      obtain ⟨wf1, h1, h2, h3⟩ := PWrapped.posDeriv_ok (h j).1 i
      obtain ⟨w1, b1, b2⟩ := Prog.run_ok hc ((dfs j).spec (.pos i) a k) (h.set j wf1 h2 (h3.trans (h j).2)) s
      rw [(h j).2] at h1
      rw [PWrapDef.spec_meaning] at b2
      simp only [posTermsP, h1, uncPos, termsFrom, List.map_cons, inOrder, b2]
      rcases hd : ((dfs j).meaning spec).spec (.pos i) a k s with ⟨s1, e | c⟩
      · exact ⟨w1, b1, rfl⟩
      · obtain ⟨w2, a1, a3⟩ := ih b1 (i + 1) s1 (.pair c u.lin :: acc)
        refine ⟨w2, a1, ?_⟩
        simp only [a3, termsFrom]
        rcases hr : inOrder ((uncPos (i + 1) args).map fun p => (p.2, ((dfs j).meaning spec).spec p.1 a k)) s1 with ⟨s2, e | l⟩
        · simp only [hr]
        · simp [hr, termsOf]

theorem kwTermsP_ok {dfs : Nat → PWrapDef S F} {call : NestedCall S F} {spec : SpecCall S F} (hc : NestedFollows dfs call spec) (j : Nat)
    {w : Closures S F} (h : w.OK dfs) (a : List (PyVal F)) (k : KwArgs F) (kwargs : List (String × Val F)) (s : S)
    (acc : List (Item F)) :
    ∃ w', Closures.OK dfs w' ∧ kwTermsP call j a k kwargs w s acc =
      match termsFrom ((dfs j).meaning spec) a k (uncKw kwargs) s with
      | (s1, .error e) => (w', s1, .error e)
      | (s1, .ok l) => (w', s1, .ok (termsOf l ++ acc)) := by
  induction kwargs generalizing w s acc with
  | nil => exact ⟨w, h, rfl⟩
  | cons p kwargs ih =>
    obtain ⟨name, v⟩ := p
    cases v with
    | plain v => exact ih h s acc
    | unc u =>
      obtain ⟨wf1, h1, h2, h3⟩ := PWrapped.kwDeriv_ok (h j).1 name
      obtain ⟨w1, b1, b2⟩ := Prog.run_ok hc ((dfs j).spec (.kw name) a k) (h.set j wf1 h2 (h3.trans (h j).2)) s
      rw [(h j).2] at h1
      rw [PWrapDef.spec_meaning] at b2
      simp only [kwTermsP, h1, uncKw, termsFrom, List.map_cons, inOrder, b2]
      rcases hd : ((dfs j).meaning spec).spec (.kw name) a k s with ⟨s1, e | c⟩
      · exact ⟨w1, b1, rfl⟩
      · obtain ⟨w2, a1, a3⟩ := ih b1 s1 (.pair c u.lin :: acc)
        refine ⟨w2, a1, ?_⟩
        simp only [a3, termsFrom]
        rcases hr : inOrder ((uncKw kwargs).map fun p => (p.2, ((dfs j).meaning spec).spec p.1 a k)) s1 with ⟨s2, e | l⟩
        · simp only [hr]
        · simp [hr, termsOf]

/-- The documented call, without caches. -/
def specNested (dfs : Nat → PWrapDef S F) (spec : SpecCall S F) : SpecCall S F := fun j args kwargs s =>
  ((documentedCall ((dfs j).meaning spec) args kwargs s).1, (documentedCall ((dfs j).meaning spec) args kwargs s).2.map modelResult)

theorem bodyP_ok {dfs : Nat → PWrapDef S F} {call : NestedCall S F} {spec : SpecCall S F} (hc : NestedFollows dfs call spec) :
    NestedFollows dfs (bodyP call) (specNested dfs spec) := by
  intro j args kwargs hk w s h
  have hdf := (h j).2
  have hmap : ((uncertainArgs args kwargs).map fun p => (p.2, derivValue ((dfs j).meaning spec) (args.map Val.nominal)
        (kwargs.map fun p => (p.1, p.2.nominal)) p.1 p.2.nom)) =
      (uncPos 0 args).map (fun p => (p.2, ((dfs j).meaning spec).spec p.1 (args.map Val.nominal)
        (kwargs.map fun p => (p.1, p.2.nominal)))) ++
      (uncKw kwargs).map (fun p => (p.2, ((dfs j).meaning spec).spec p.1 (args.map Val.nominal)
        (kwargs.map fun p => (p.1, p.2.nominal)))) := by
    rw [← List.map_append, ← uncertainArgs_eq]
    refine List.map_congr_left fun p hp => ?_
    rw [spec_derivValue _ args kwargs hk p.1 p.2 hp]
  obtain ⟨w0, c1, c2⟩ := Prog.run_ok hc ((dfs j).f (args.map Val.nominal) (kwargs.map fun p => (p.1, p.2.nominal))) h s
  have hm : ((dfs j).f (args.map Val.nominal) (kwargs.map fun p => (p.1, p.2.nominal))).meaning spec s =
    ((dfs j).meaning spec).f (args.map Val.nominal) (kwargs.map fun p => (p.1, p.2.nominal)) s := rfl
  rw [hm] at c2
  unfold bodyP specNested documentedCall
  simp only [noUnc_iff, hmap, inOrder_append, hdf, c2]
  rcases hf : ((dfs j).meaning spec).f (args.map Val.nominal) (kwargs.map fun p => (p.1, p.2.nominal)) s with ⟨s1, e | v⟩
  · simp only [hf]
    exact ⟨w0, c1, by split <;> rfl⟩
  simp only [hf]
  by_cases he : (uncertainArgs args kwargs).isEmpty = true
  · simp only [he, if_true]
    exact ⟨w0, c1, rfl⟩
  simp only [he, if_false, Bool.false_eq_true]
  by_cases hv : v.floatLike = true
  swap
  · simp only [hv]
    exact ⟨w0, c1, rfl⟩
  simp only [hv, Bool.not_true, if_false, Bool.false_eq_true]
  obtain ⟨w1, a1, a3⟩ := posTermsP_ok hc j c1 (args.map Val.nominal) (kwargs.map fun p => (p.1, p.2.nominal)) 0 args s1 []
  rw [a3, termsFrom]
  rcases h1 : inOrder ((uncPos 0 args).map fun p => (p.2, ((dfs j).meaning spec).spec p.1 (args.map Val.nominal)
    (kwargs.map fun p => (p.1, p.2.nominal)))) s1 with ⟨s2, e | l1⟩
  · exact ⟨w1, a1, by simp only [h1]; rfl⟩
  simp only [h1]
  obtain ⟨w2, b1, b3⟩ := kwTermsP_ok hc j a1 (args.map Val.nominal) (kwargs.map fun p => (p.1, p.2.nominal)) kwargs s2
    (termsOf l1 ++ [])
  rw [b3, termsFrom]
  rcases h2 : inOrder ((uncKw kwargs).map fun p => (p.2, ((dfs j).meaning spec).spec p.1 (args.map Val.nominal)
    (kwargs.map fun p => (p.1, p.2.nominal)))) s2 with ⟨s3, e | l2⟩
  · exact ⟨w2, b1, by simp only [h2]; rfl⟩
  refine ⟨w2, b1, ?_⟩
  simp only [h2]
  cases v.toFloat with
  | error e => rfl
  | ok x => simp [Except.map, modelResult, termsOf]

theorem documentedNested_succ (dfs : Nat → PWrapDef S F) (n : Nat) :
    documentedNested dfs (n + 1) = specNested dfs (documentedNested dfs n) := by
  funext j args kwargs s
  simp only [documentedNested, specNested]
  rcases documentedCall ((dfs j).meaning (documentedNested dfs n)) args kwargs s with ⟨s1, e | v | ⟨x, l⟩⟩ <;> rfl

theorem callP_ok (dfs : Nat → PWrapDef S F) (n : Nat) : NestedFollows dfs (callP n) (documentedNested dfs n) := by
  induction n with
  | zero => exact fun j args kwargs _ w s h => ⟨w, h, rfl⟩
  | succ n ih => rw [documentedNested_succ]; exact bodyP_ok ih

theorem callsP_ok (dfs : Nat → PWrapDef S F) (cs : List (PCall S F)) {w : Closures S F} (h : w.OK dfs) : (callsP cs w).OK dfs := by
  induction cs generalizing w with
  | nil => exact h
  | cons c cs ih =>
    obtain ⟨w1, a1, a2⟩ := callP_ok dfs c.limit c.j c.args c.kwargs c.nodup w c.state h
    exact ih (w := (callP c.limit c.j c.args c.kwargs w c.state).1) (by rw [a2]; exact a1)

end Unc
