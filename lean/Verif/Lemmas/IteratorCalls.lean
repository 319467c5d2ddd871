import Verif.Lemmas.Iterator

/-
Wrapped functions with an iterator of derivatives: `wrap` and calls.
-/

namespace Unc

set_option autoImplicit false

variable {S I F : Type} [PyFloat F]

theorem mkWrappedI_ok (df : IWrapDef S I F) (i : I) :
    ∃ i' M r, mkWrappedI df.noted (i, []) = ((i', M), r) ∧ Asked M (raisedBy r) ∧
      (elementsOf M).length ≤ (df.argspec.getD []).length ∧
      ∀ wf, r = .ok wf → IWrapped.OK df wf M := by
  have hit0 : IIter.OK (D := EDeriv S F) { ended := false, returnedElements := [], noneConverter := fun _ => none } [] :=
    ⟨fun _ => ⟨rfl, by simp⟩, by simp [elementsOf], fun k hk => by simp at hk, fun A B h => by simp at h, fun h => by simp at h⟩
  have hkw0 : ∀ name, (initKwargsE (partialDerivativeE df.f) df.derivativesKwargs []).lookup name =
      match df.derivativesKwargs.lookup name with
      | some (some d) => some d
      | some none => some (partialDerivativeE df.f (.kw name))
      | none => none := by
    intro name
    rw [initKwargsE_lookup _ _ _ df.kwargsNodup]
    cases df.derivativesKwargs.lookup name with
    | none => rfl
    | some o => cases o <;> rfl
  have finish : ∀ (it : IIter (EDeriv S F)) (kw : List (String × EDeriv S F)) (M : List (NextRes (EDeriv S F))), it.OK M →
      it.noneConverter = (fun _ => none) → (df.argspec.getD []).length ≤ it.returnedElements.length →
      (∀ name d, kw.lookup name = some d → d = df.specOf M (.kw name)) →
      (∀ name, kw.lookup name = none → df.specOf M (.kw name) = partialDerivativeE df.f (.kw name)) →
      IWrapped.OK df { df := df.noted, iter := { it with
          returnedElements := convertNonesE (partialDerivativeE df.f) 0 it.returnedElements
          noneConverter := fun index => some (partialDerivativeE df.f (.pos index)) }, kw := kw } M := by
    intro it kw M hok hn hl hk1 hk2
    refine ⟨rfl, rfl, ⟨?_, ?_, ?_, hok.last, hok.stopped⟩, ?_, hk1, hk2⟩
    · intro he
      simp only [convertNonesE_length]
      exact hok.running he
    · simp only [convertNonesE_length]; exact hok.le
    · intro k hk
      simp only [convertNonesE_length] at hk
      simp only [convertNonesE_getElem, hok.elems k hk, Option.map_some, Nat.zero_add]
      simp only [elementAt, hn]
      cases ((elementsOf M)[k]?).join <;> rfl
    · simp only [convertNonesE_length]; exact hl
  cases hspec : df.argspec with
  | none =>
    have e : mkWrappedI df.noted (i, []) = ((i, []), .ok ⟨df.noted, ⟨false, convertNonesE (partialDerivativeE df.f) 0 [],
        fun index => some (partialDerivativeE df.f (.pos index))⟩, initKwargsE (partialDerivativeE df.f) df.derivativesKwargs []⟩) := by
      simp only [mkWrappedI, IWrapDef.noted, hspec]
    refine ⟨i, [], _, e, .fine NoException.nil, by simp [elementsOf], ?_⟩
    intro wf hwf
    cases hwf
    refine finish _ _ [] hit0 rfl (by simp [hspec]) ?_ ?_
    · intro name d hd
      rw [hkw0] at hd
      simp only [IWrapDef.specOf, IWrapDef.withList, EWrapDef.spec, EWrapDef.given, hspec, Option.getD_none, List.idxOf?_nil]
      cases hl : df.derivativesKwargs.lookup name with
      | none => simp [hl] at hd
      | some o => cases o <;> simp_all
    · intro name hd
      rw [hkw0] at hd
      simp only [IWrapDef.specOf, IWrapDef.withList, EWrapDef.spec, EWrapDef.given, hspec, Option.getD_none, List.idxOf?_nil]
      cases hl : df.derivativesKwargs.lookup name with
      | none => rfl
      | some o => cases o <;> simp_all
  | some names =>
    obtain ⟨i', M, r, a1, a2, -, a4, a5⟩ := initArgspecI_ok df.source (partialDerivativeE df.f) 0 names
      (initKwargsE (partialDerivativeE df.f) df.derivativesKwargs []) (df.argspecNodup names hspec) hit0 rfl i
    simp only [List.nil_append] at a1 a4 a5
    have a4' : (elementsOf M).length ≤ names.length := by simpa [elementsOf] using a4
    cases r with
    | error e =>
      exact ⟨i', M, .error e, by simp only [mkWrappedI, IWrapDef.noted, hspec, a1], a2, a4', fun wf h => (by cases h)⟩
    | ok p =>
      obtain ⟨it', kw'⟩ := p
      have e1 : mkWrappedI df.noted (i, []) = ((i', M), .ok ⟨df.noted, ⟨it'.ended,
          convertNonesE (partialDerivativeE df.f) 0 it'.returnedElements, fun index => some (partialDerivativeE df.f (.pos index))⟩, kw'⟩) := by
        simp only [mkWrappedI, IWrapDef.noted, hspec, a1]
      refine ⟨i', M, _, e1, .fine (by cases a2 with | fine h => exact h), a4', ?_⟩
      intro wf hwf
      cases hwf
      obtain ⟨c1, c2, c3, c4, -, e⟩ := a5 it' kw' rfl
      have hl : (df.argspec.getD []).length ≤ it'.returnedElements.length := by
        rw [hspec, Option.getD_some]
        rcases names with _ | ⟨m, names⟩
        · simp
        · have := c4 (by simp); omega
      refine finish it' kw' M c1 c2 hl ?_ ?_
      · intro name d hd
        rw [e name] at hd
        simp only [IWrapDef.specOf, IWrapDef.withList, EWrapDef.spec, EWrapDef.given, hspec, Option.getD_some]
        cases hi : names.idxOf? name with
        | some j =>
          simp only [hi, Option.some.injEq] at hd
          rw [← hd]
          simp only [Nat.zero_add]
          cases ((elementsOf M)[j]?).join <;> rfl
        | none =>
          simp only [hi] at hd
          rw [hkw0] at hd
          cases hl : df.derivativesKwargs.lookup name with
          | none => simp [hl] at hd
          | some o => cases o <;> simp_all
      · intro name hd
        rw [e name] at hd
        simp only [IWrapDef.specOf, IWrapDef.withList, EWrapDef.spec, EWrapDef.given, hspec, Option.getD_some]
        cases hi : names.idxOf? name with
        | some i => simp [hi] at hd
        | none =>
          simp only [hi] at hd
          rw [hkw0] at hd
          cases hl : df.derivativesKwargs.lookup name with
          | none => rfl
          | some o => cases o <;> simp_all

theorem IWrapped.posDeriv_ok {df : IWrapDef S I F} {wf : IWrapped S (I × List (NextRes (EDeriv S F))) F}
    {R : List (NextRes (EDeriv S F))} (h : wf.OK df R) (pos : Nat) (i : I) :
    ∃ wf' i' M r, wf.posDeriv pos (i, R) = (wf', (i', R ++ M), r) ∧ Asked M (raisedBy r) ∧ wf'.OK df (R ++ M) ∧
      (wf.iter.ended = true → M = [] ∧ wf'.iter.ended = true) ∧
      wf.iter.returnedElements.length ≤ wf'.iter.returnedElements.length ∧
      (∀ d, r = .ok d → d = df.specOf (R ++ M) (.pos pos) ∧ pos < wf'.iter.returnedElements.length) ∧
      (elementsOf (R ++ M)).length ≤ max (elementsOf R).length (pos + 1) ∧
      (pos < wf.iter.returnedElements.length → M = [] ∧ i' = i) := by
  obtain ⟨it', i', M, r, a1, a2, a3, a4, a5, a6, a7, a8, a9⟩ := IIter.getItem_ok df.source h.iter pos i
  have hsrc : wf.df.source = notedSource df.source := by rw [h.wrapDef]; rfl
  have hok : IWrapped.OK df { wf with iter := it' } (R ++ M) :=
    ⟨h.wrapDef, a4.trans h.nones, a3, Nat.le_trans h.names a6,
      fun name d hd => by rw [h.stable_kw M (fun he => (a5 he).1)]; exact h.kw name d hd,
      fun name hd => by rw [h.stable_kw M (fun he => (a5 he).1)]; exact h.kwNone name hd⟩
  unfold IWrapped.posDeriv
  rw [hsrc, a1]
  cases r with
  | error e => exact ⟨_, i', M, .error e, rfl, a2, hok, a5, a6, fun d hd => (by cases hd), a8, a9⟩
  | ok v =>
    obtain ⟨b1, b2⟩ := a7 v rfl
    have hv : v = some (df.specOf (R ++ M) (.pos pos)) := by
      rw [b1, h.nones]
      unfold elementAt IWrapDef.specOf
      rw [EWrapDef.spec_pos]
      simp only [IWrapDef.withList]
      cases ((elementsOf (R ++ M))[pos]?).join <;> rfl
    subst hv
    exact ⟨_, i', M, .ok (df.specOf (R ++ M) (.pos pos)), rfl, a2, hok, a5, a6, fun d hd => by cases hd; exact ⟨rfl, b2⟩, a8, a9⟩

theorem IWrapped.kwDeriv_ok {df : IWrapDef S I F} {wf : IWrapped S (I × List (NextRes (EDeriv S F))) F}
    {R : List (NextRes (EDeriv S F))} (h : wf.OK df R) (name : String) :
    ∃ wf', wf.kwDeriv name = (wf', df.specOf R (.kw name)) ∧ wf'.OK df R ∧ wf'.iter = wf.iter := by
  unfold IWrapped.kwDeriv
  cases hl : wf.kw.lookup name with
  | some d =>
    have := h.kw name d hl
    subst this
    exact ⟨wf, rfl, h, rfl⟩
  | none =>
    have hn := h.kwNone name hl
    have hf : wf.df.f = df.f := by rw [h.wrapDef]; rfl
    refine ⟨{ wf with kw := wf.kw ++ [(name, partialDerivativeE wf.df.f (.kw name))] }, ?_, ?_, rfl⟩
    · simp only []; rw [hn, hf]
    · refine ⟨h.wrapDef, h.nones, h.iter, h.names, ?_, ?_⟩
      · intro k d hk
        rw [lookup_append_singleton _ _ _ _ hl] at hk
        by_cases hkn : k = name
        · subst hkn
          simp only [if_true, Option.some.injEq] at hk
          rw [← hk, hn, hf]
        · simp only [hkn, if_false] at hk
          exact h.kw k d hk
      · intro k hk
        rw [lookup_append_singleton _ _ _ _ hl] at hk
        by_cases hkn : k = name
        · simp [hkn] at hk
        · simp only [hkn, if_false] at hk
          exact h.kwNone k hk

/-- The outcome of a sequence of requests and calls: that of the documented sequence `doc`, or an exception of the iterator. -/
def FollowsDoc {α β : Type} (M : List (NextRes (EDeriv S F))) (doc : S × PyRes α) (f : α → β) (s : S) (r : PyRes β) : Prop :=
  (NoException M ∧ s = doc.1 ∧ r = doc.2.map f) ∨ (∃ M0 e, NoException M0 ∧ M = M0 ++ [.raise e] ∧ r = .error e)

theorem posTermsI_ok {df : IWrapDef S I F} {wf : IWrapped S (I × List (NextRes (EDeriv S F))) F}
    {R : List (NextRes (EDeriv S F))} (h : wf.OK df R) (a : List (PyVal F)) (k : KwArgs F) (pos : Nat) (args : List (Val F)) (s : S) (i : I)
    (acc : List (Item F)) :
    ∃ wf' s' i' M r, posTermsI a k pos args wf s (i, R) acc = (wf', s', (i', R ++ M), r) ∧ wf'.OK df (R ++ M) ∧
      (wf.iter.ended = true → M = [] ∧ wf'.iter.ended = true) ∧
      (∀ n, (∀ j u, args[j]? = some (.unc u) → pos + j < n) → (elementsOf (R ++ M)).length ≤ max (elementsOf R).length n) ∧
      ((∀ j u, args[j]? = some (.unc u) → pos + j < wf.iter.returnedElements.length) → M = [] ∧ i' = i) ∧
      wf.iter.returnedElements.length ≤ wf'.iter.returnedElements.length ∧
      (∀ l, r = .ok l → ∀ j u, args[j]? = some (.unc u) → pos + j < wf'.iter.returnedElements.length) ∧
      FollowsDoc M (termsFrom (df.withList (elementsOf (R ++ M))) a k (uncPos pos args) s) (fun l => termsOf l ++ acc) s' r := by
  induction args generalizing pos wf R s i acc with
  | nil =>
    exact ⟨wf, s, i, [], .ok acc, by simp only [posTermsI, List.append_nil], by simpa using h, fun he => ⟨rfl, he⟩,
      fun n _ => by rw [List.append_nil]; omega, fun _ => ⟨rfl, rfl⟩, Nat.le_refl _, fun _ _ j u hj => (by simp at hj), .inl ⟨NoException.nil, rfl, rfl⟩⟩
  | cons v args ih =>
    cases v with
    | plain v =>
      obtain ⟨wf', s', i', M, r, a1, a2, a3, a4, a5, y1, y2, a6⟩ := ih h (pos + 1) s i acc
      refine ⟨wf', s', i', M, r, a1, a2, a3, fun n hn => a4 n fun j u hj => ?_, fun hn => a5 fun j u hj => ?_, y1, fun l hl j u hj => ?_, a6⟩
      · have := hn (j + 1) u hj; omega
      · have := hn (j + 1) u hj; omega
      · cases j with
        | zero => cases hj
        | succ j => have := y2 l hl j u hj; omega
    | unc u =>
      obtain ⟨wf1, i1, M1, r1, b1, b2, b3, b4, b5, b6, b7, b8⟩ := IWrapped.posDeriv_ok h pos i
      have h0 : ∀ n, (∀ j u', (Val.unc u :: args)[j]? = some (.unc u') → pos + j < n) → pos < n :=
        fun n hn => by have := hn 0 u rfl; omega
      have hm : ∀ n : Nat, pos < n → (elementsOf (R ++ M1)).length ≤ max (elementsOf R).length n := fun n hn => by omega
      cases r1 with
      | error e =>
        refine ⟨wf1, s, i1, M1, .error e, by simp only [posTermsI, b1], b3, b4, fun n hn => hm n (h0 n hn), fun hn => b8 (h0 _ hn), b5, fun l hl => (by cases hl), .inr ?_⟩
        cases b2 with
        | failed M0 _ h0 hM => exact ⟨M0, e, h0, hM, rfl⟩
      | ok d =>
        obtain ⟨c1, c2⟩ := b6 d rfl
        have hM1 : NoException M1 := by cases b2 with | fine h => exact h
        rcases hd : d a k s with ⟨s1, e | c⟩
        · refine ⟨wf1, s1, i1, M1, .error e, by simp only [posTermsI, b1, hd], b3, b4, fun n hn => hm n (h0 n hn), fun hn => b8 (h0 _ hn), b5,
            fun l hl => (by cases hl), .inl ⟨hM1, ?_⟩⟩
          rw [c1] at hd
          simp only [uncPos, termsFrom, List.map_cons, inOrder]
          rw [show (df.withList (elementsOf (R ++ M1))).spec (.pos pos) = df.specOf (R ++ M1) (.pos pos) from rfl, hd]
          exact ⟨rfl, rfl⟩
        · obtain ⟨wf2, s2, i2, M2, r, a1, a2, a3, a4, a5, y1, y2, a6⟩ := ih b3 (pos + 1) s1 i1 (.pair c u.lin :: acc)
          have hst : (df.withList (elementsOf (R ++ (M1 ++ M2)))).spec (.pos pos) = d := by
            rw [← List.append_assoc, c1]
            exact b3.stable_pos M2 (fun he => (a3 he).1) pos c2
          refine ⟨wf2, s2, i2, M1 ++ M2, r, by simp only [posTermsI, b1, hd, a1, List.append_assoc], by rw [← List.append_assoc]; exact a2,
            fun he => ?_, fun n hn => ?_, fun hn => ?_, Nat.le_trans b5 y1, fun l hl j u' hj => ?_, ?_⟩
          · obtain ⟨x1, x2⟩ := b4 he
            obtain ⟨x3, x4⟩ := a3 x2
            exact ⟨by rw [x1, x3]; rfl, x4⟩
          · have := a4 n fun j u' hj => by have := hn (j + 1) u' hj; omega
            have := hm n (h0 n hn)
            rw [← List.append_assoc]; omega
          · obtain ⟨x1, x2⟩ := b8 (h0 _ hn)
            obtain ⟨x3, x4⟩ := a5 fun j u' hj => by have := hn (j + 1) u' hj; omega
            exact ⟨by rw [x1, x3]; rfl, by rw [x4, x2]⟩
          · cases j with
            | zero => omega
            | succ j => have := y2 l hl j u' hj; omega
          · rcases a6 with ⟨x1, x2, x3⟩ | ⟨M0, e, x1, x2, x3⟩
            · refine .inl ⟨hM1.append x1, ?_⟩
              simp only [uncPos, termsFrom, List.map_cons, inOrder, hst, hd]
              rw [termsFrom, List.append_assoc] at x2 x3
              rcases hr : inOrder ((uncPos (pos + 1) args).map fun p => (p.2, (df.withList (elementsOf (R ++ (M1 ++ M2)))).spec p.1 a k)) s1
                with ⟨s3, e | l⟩
              · rw [hr] at x2 x3 ⊢
                exact ⟨x2, x3⟩
              · rw [hr] at x2 x3 ⊢
                refine ⟨x2, x3.trans ?_⟩
                simp [Except.map, termsOf]
            · exact .inr ⟨M1 ++ M0, e, hM1.append x1, by rw [x2, List.append_assoc], x3⟩

theorem kwTermsI_ok {df : IWrapDef S I F} {wf : IWrapped S (I × List (NextRes (EDeriv S F))) F}
    {R : List (NextRes (EDeriv S F))} (h : wf.OK df R) (a : List (PyVal F)) (k : KwArgs F) (kwargs : List (String × Val F)) (s : S)
    (acc : List (Item F)) :
    ∃ wf', wf'.OK df R ∧ wf'.iter = wf.iter ∧ kwTermsI a k kwargs wf s acc =
      match termsFrom (df.withList (elementsOf R)) a k (uncKw kwargs) s with
      | (s1, .error e) => (wf', s1, .error e)
      | (s1, .ok l) => (wf', s1, .ok (termsOf l ++ acc)) := by
  induction kwargs generalizing wf s acc with
  | nil => exact ⟨wf, h, rfl, rfl⟩
  | cons p kwargs ih =>
    obtain ⟨name, v⟩ := p
    cases v with
    | plain v => exact ih h s acc
    | unc u =>
      obtain ⟨wf1, h1, h2, h3⟩ := IWrapped.kwDeriv_ok h name
      simp only [kwTermsI, h1, uncKw, termsFrom, List.map_cons, inOrder]
      rw [show (df.withList (elementsOf R)).spec (.kw name) = df.specOf R (.kw name) from rfl]
      rcases hd : df.specOf R (.kw name) a k s with ⟨s1, e | c⟩
      · exact ⟨wf1, h2, h3, rfl⟩
      · obtain ⟨wf2, a1, a2, a3⟩ := ih h2 s1 (.pair c u.lin :: acc)
        refine ⟨wf2, a1, a2.trans h3, ?_⟩
        simp only [a3, termsFrom]
        rcases hr : inOrder ((uncKw kwargs).map fun p => (p.2, (df.withList (elementsOf R)).spec p.1 a k)) s1 with ⟨s2, e | l⟩
        · simp only [hr]
        · simp [hr, termsOf]

theorem callI_ok {df : IWrapDef S I F} {wf : IWrapped S (I × List (NextRes (EDeriv S F))) F}
    {R : List (NextRes (EDeriv S F))} (h : wf.OK df R) (args : List (Val F)) (kwargs : List (String × Val F))
    (hk : (kwargs.map Prod.fst).Nodup) (s : S) (i : I) :
    ∃ wf' s' i' M r, callI wf args kwargs s (i, R) = (wf', s', (i', R ++ M), r) ∧ wf'.OK df (R ++ M) ∧
      (∀ n, (∀ j u, args[j]? = some (.unc u) → j < n) → (elementsOf (R ++ M)).length ≤ max (elementsOf R).length n) ∧
      ((∀ j u, args[j]? = some (.unc u) → j < wf.iter.returnedElements.length) → M = [] ∧ i' = i) ∧
      (∀ x, r = .ok (.inr x) → ∀ j u, args[j]? = some (.unc u) → j < wf'.iter.returnedElements.length) ∧
      FollowsDoc M (documentedCall (df.withList (elementsOf (R ++ M))) args kwargs s) modelResult s' r := by
  have hmap : ∀ df' : EWrapDef S F, ((uncertainArgs args kwargs).map fun p => (p.2, derivValue df' (args.map Val.nominal)
        (kwargs.map fun p => (p.1, p.2.nominal)) p.1 p.2.nom)) =
      (uncPos 0 args).map (fun p => (p.2, df'.spec p.1 (args.map Val.nominal) (kwargs.map fun p => (p.1, p.2.nominal)))) ++
      (uncKw kwargs).map (fun p => (p.2, df'.spec p.1 (args.map Val.nominal) (kwargs.map fun p => (p.1, p.2.nominal)))) := by
    intro df'
    rw [← List.map_append, ← uncertainArgs_eq]
    refine List.map_congr_left fun p hp => ?_
    rw [spec_derivValue df' args kwargs hk p.1 p.2 hp]
  have hf0 : wf.df.f = df.f := by rw [h.wrapDef]; rfl
  have hfw : ∀ R', (df.withList (elementsOf R')).f = df.f := fun _ => rfl
  have stay : ∀ s' r, (∀ x, r ≠ .ok (.inr x)) → callI wf args kwargs s (i, R) = (wf, s', (i, R), r) →
      s' = (documentedCall (df.withList (elementsOf R)) args kwargs s).1 →
      r = (documentedCall (df.withList (elementsOf R)) args kwargs s).2.map modelResult →
      ∃ wf' s' i' M r, callI wf args kwargs s (i, R) = (wf', s', (i', R ++ M), r) ∧ wf'.OK df (R ++ M) ∧
      (∀ n, (∀ j u, args[j]? = some (.unc u) → j < n) → (elementsOf (R ++ M)).length ≤ max (elementsOf R).length n) ∧
      ((∀ j u, args[j]? = some (.unc u) → j < wf.iter.returnedElements.length) → M = [] ∧ i' = i) ∧
      (∀ x, r = .ok (.inr x) → ∀ j u, args[j]? = some (.unc u) → j < wf'.iter.returnedElements.length) ∧
      FollowsDoc M (documentedCall (df.withList (elementsOf (R ++ M))) args kwargs s) modelResult s' r := by
    intro s' r h0 h1 h2 h3
    refine ⟨wf, s', i, [], r, by rw [h1, List.append_nil], by simpa using h, fun n _ => by rw [List.append_nil]; omega, fun _ => ⟨rfl, rfl⟩,
      fun x hx => absurd hx (h0 x), .inl ⟨NoException.nil, by rw [List.append_nil]; exact h2, by rw [List.append_nil]; exact h3⟩⟩
  rcases hf : df.f (args.map Val.nominal) (kwargs.map fun p => (p.1, p.2.nominal)) s with ⟨s1, e | v⟩
  · refine stay s1 (.error e) (fun x hx => (by cases hx)) ?_ ?_ ?_
    · simp only [callI, hf0, hf]; split <;> rfl
    · simp only [documentedCall, hfw, hf]
    · simp only [documentedCall, hfw, hf]; rfl
  by_cases he : (uncertainArgs args kwargs).isEmpty = true
  · refine stay s1 (.ok (.inl v)) (fun x hx => (by cases hx)) ?_ ?_ ?_
    · simp only [callI, noUnc_iff, hf0, hf, he, if_true]
    · simp only [documentedCall, hfw, hf, he, if_true]
    · simp only [documentedCall, hfw, hf, he, if_true]; rfl
  by_cases hv : v.floatLike = true
  swap
  · refine stay s1 (.ok (.inl .notImpl)) (fun x hx => (by cases hx)) ?_ ?_ ?_
    · simp only [callI, noUnc_iff, hf0, hf, he, if_false, Bool.false_eq_true, hv, Bool.not_false, if_true]
    · simp only [documentedCall, hfw, hf, he, if_false, Bool.false_eq_true, hv, Bool.not_false, if_true]
    · simp only [documentedCall, hfw, hf, he, if_false, Bool.false_eq_true, hv, Bool.not_false, if_true]; rfl
  obtain ⟨wf1, s2, i1, M, r1, a1, a2, -, a4, a5, -, y2, a6⟩ := posTermsI_ok h (args.map Val.nominal) (kwargs.map fun p => (p.1, p.2.nominal)) 0
    args s1 i []
  simp only [Nat.zero_add] at a4 a5 y2
  have hdoc : documentedCall (df.withList (elementsOf (R ++ M))) args kwargs s =
      match inOrder ((uncPos 0 args).map (fun p => (p.2, (df.withList (elementsOf (R ++ M))).spec p.1 (args.map Val.nominal) (kwargs.map fun p => (p.1, p.2.nominal)))) ++
        (uncKw kwargs).map (fun p => (p.2, (df.withList (elementsOf (R ++ M))).spec p.1 (args.map Val.nominal) (kwargs.map fun p => (p.1, p.2.nominal))))) s1 with
      | (s2, .error e) => (s2, .error e)
      | (s2, .ok l) =>
        match v.toFloat with
        | .error e => (s2, .error e)
        | .ok x => (s2, .ok (.inr (x, l))) := by
    simp only [documentedCall, hfw, hf, he, if_false, Bool.false_eq_true, hv, Bool.not_true, hmap]
    rfl
  simp only [callI, noUnc_iff, hf0, hf, he, if_false, Bool.false_eq_true, hv, Bool.not_true, a1]
  rcases a6 with ⟨x1, x2, x3⟩ | ⟨M0, e, x1, x2, x3⟩
  swap
  · subst x3
    exact ⟨wf1, s2, i1, M, .error e, rfl, a2, a4, a5, fun x hx => (by cases hx), .inr ⟨M0, e, x1, x2, rfl⟩⟩
  rw [termsFrom] at x2 x3
  rw [inOrder_append] at hdoc
  rcases h1 : inOrder ((uncPos 0 args).map fun p => (p.2, (df.withList (elementsOf (R ++ M))).spec p.1 (args.map Val.nominal)
    (kwargs.map fun p => (p.1, p.2.nominal)))) s1 with ⟨s3, e | l1⟩
  · rw [h1] at x2 x3 hdoc
    subst x3
    refine ⟨wf1, s2, i1, M, .error e, rfl, a2, a4, a5, fun x hx => (by cases hx), .inl ⟨x1, ?_, ?_⟩⟩
    · rw [hdoc]; exact x2
    · rw [hdoc]; rfl
  rw [h1] at x2 x3 hdoc
  subst x3
  simp only [] at x2
  subst x2
  obtain ⟨wf2, b1, b2, b3⟩ := kwTermsI_ok a2 (args.map Val.nominal) (kwargs.map fun p => (p.1, p.2.nominal)) kwargs s2
    (termsOf l1 ++ [])
  simp only [Except.map]
  rw [b3, termsFrom]
  simp only [] at hdoc
  rcases h2 : inOrder ((uncKw kwargs).map fun p => (p.2, (df.withList (elementsOf (R ++ M))).spec p.1 (args.map Val.nominal)
    (kwargs.map fun p => (p.1, p.2.nominal)))) s2 with ⟨s4, e | l2⟩
  · rw [h2] at hdoc ⊢
    refine ⟨wf2, s4, i1, M, .error e, rfl, b1, a4, a5, fun x hx => (by cases hx), .inl ⟨x1, ?_, ?_⟩⟩
    · rw [hdoc]
    · rw [hdoc]; rfl
  rw [h2] at hdoc ⊢
  simp only [] at hdoc ⊢
  cases hx : v.toFloat with
  | error e =>
    rw [hx] at hdoc
    refine ⟨wf2, s4, i1, M, .error e, rfl, b1, a4, a5, fun x hx => (by cases hx), .inl ⟨x1, ?_, ?_⟩⟩
    · rw [hdoc]
    · rw [hdoc]; rfl
  | ok x =>
    rw [hx] at hdoc
    refine ⟨wf2, s4, i1, M, _, rfl, b1, a4, a5, fun x hx => (by rw [b2]; exact y2 _ rfl), .inl ⟨x1, ?_, ?_⟩⟩
    · rw [hdoc]
    · rw [hdoc]; simp [Except.map, modelResult, termsOf]

/-- After a history of calls, the invariant holds, with the answers of the iterator. -/
theorem callsI_ok {df : IWrapDef S I F} (cs : List (ICall S I F)) {wf : IWrapped S (I × List (NextRes (EDeriv S F))) F}
    {R : List (NextRes (EDeriv S F))} (h : wf.OK df R) (hk : ∀ c ∈ cs, (c.kwargs.map Prod.fst).Nodup) (i : I) :
    ∃ wf' i' M, callsI (cs.map ICall.noted) wf (i, R) = (wf', (i', R ++ M)) ∧ wf'.OK df (R ++ M) ∧
      ∀ n, (∀ c ∈ cs, ∀ j u, c.args[j]? = some (.unc u) → j < n) → (elementsOf (R ++ M)).length ≤ max (elementsOf R).length n := by
  induction cs generalizing wf R i with
  | nil => exact ⟨wf, i, [], by simp [callsI], by simpa using h, fun n _ => by rw [List.append_nil]; omega⟩
  | cons c cs ih =>
    obtain ⟨wf1, s1, i1, M1, r, a1, a2, a3, -, -, -⟩ := callI_ok h c.args c.kwargs (hk c List.mem_cons_self) c.state (c.before i)
    obtain ⟨wf2, i2, M2, b1, b2, b3⟩ := ih a2 (fun c' hc' => hk c' (List.mem_cons_of_mem _ hc')) i1
    refine ⟨wf2, i2, M1 ++ M2, ?_, by rw [← List.append_assoc]; exact b2, fun n hn => ?_⟩
    · simp only [List.map_cons, callsI, ICall.noted, a1]
      rw [← List.append_assoc]
      exact b1
    · have x1 := a3 n (hn c List.mem_cons_self)
      have x2 := b3 n fun c' hc' => hn c' (List.mem_cons_of_mem _ hc')
      rw [← List.append_assoc]; omega

end Unc
