import Verif.Model.Objects
import Verif.Props.C32_Copies

/-
C66: deep copies of lists.
-/

set_option autoImplicit false
set_option linter.unusedSectionVars false

namespace Unc

variable {F : Type} [PyMath F] [ExactLin F]

/-- `x` and `y` are the same object: the same result, or the same variable (being a variable is having a tag, and a
variable only depends on itself). -/
def SameObject (cs : List (Cmd F)) (x y : Arg F) : Prop :=
  x = y ∨ ∃ t v, sees cs (.tag x) = .tag t ∧ sees cs (.tag y) = .tag t ∧
    sees cs (.derivatives x) = .dict (fun u => if u = v then some 1 else none) ∧
    sees cs (.derivatives y) = .dict (fun u => if u = v then some 1 else none)

/-- What `copy.deepcopy(xs)` runs after the history `cs`, and the elements of the resulting list. -/
def deepcopyOf (cs : List (Cmd F)) (xs : List (Arg F)) : List (Cmd F) × List (Arg F) :=
  (after cs).deepcopyList xs [] (after cs).env.length

theorem objId_spec {cs : List (Cmd F)} {s : SState F} (h : Reaches cs s) {x : Arg F} {q : SQ F}
    (hx : x.sevalUnc s.env = some q) :
    ∃ k, x = .ref k ∧ (after cs).objId x = some (match q.var with | some v => .inr v | none => .inl k) := by
  obtain ⟨-, g, hr⟩ := h
  cases x with
  | const v => cases hx
  | ref k =>
    refine ⟨k, rfl, ?_⟩
    simp only [Arg.sevalUnc, Arg.seval, hr.env, List.getElem?_map] at hx
    simp only [Machine.objId]
    cases hk : (after cs).env[k]? with
    | none => simp [hk] at hx
    | some o =>
      cases o with
      | none => simp [hk] at hx
      | some v =>
        cases v with
        | plain _ => simp [hk, Val.abs] at hx
        | unc u =>
          simp only [hk, Option.map_some, Option.join_some, Val.abs, Option.some.injEq] at hx
          subst hx
          simp only [UF.abs]
          cases u.var <;> rfl

theorem objId_eval {cs : List (Cmd F)} {s : SState F} (h : Reaches cs s) {x y : Arg F} {q q' : SQ F}
    (hx : x.sevalUnc s.env = some q) (hy : y.sevalUnc s.env = some q')
    (he : (after cs).objId x = (after cs).objId y) : q = q' := by
  obtain ⟨k, rfl, hk⟩ := objId_spec h hx
  obtain ⟨l, rfl, hl⟩ := objId_spec h hy
  rw [hk, hl] at he
  injection he with he
  cases hv : q.var with
  | none =>
    rw [hv] at he
    cases hv' : q'.var with
    | none =>
      rw [hv'] at he
      injection he with he
      rw [he, hy] at hx
      injection hx with hx
      exact hx.symm
    | some v => rw [hv'] at he; cases he
  | some v =>
    rw [hv] at he
    cases hv' : q'.var with
    | none => rw [hv'] at he; cases he
    | some v' =>
      rw [hv'] at he
      injection he with he
      subst he
      obtain ⟨a1, c, a2, a3⟩ := h.wf.var q (sevalUnc_mem hx) v hv
      obtain ⟨b1, c', b2, b3⟩ := h.wf.var q' (sevalUnc_mem hy) v hv'
      rw [a2] at b2
      injection b2 with b2
      obtain ⟨n, g, o⟩ := q
      obtain ⟨n', g', o'⟩ := q'
      simp only at *
      rw [a1, b1, ← a3, ← b3, b2, hv, hv']

theorem sees_tag_var {cs : List (Cmd F)} {s : SState F} (h : Reaches cs s) {x : Arg F} {q : SQ F}
    (hx : x.sevalUnc s.env = some q) {t : Option String} (ht : sees cs (.tag x) = .tag t) : ∃ v, q.var = some v := by
  rw [(h.read (c := .tag x) rfl).1] at ht
  simp only [SState.step, SState.read, hx, specTag] at ht
  cases hv : q.var with
  | none => simp [hv, PyRes.out] at ht
  | some v => exact ⟨v, rfl⟩

theorem single_inj {v w : VarId} (h : (fun u => if u = v then some (1 : F) else none) = fun u => if u = w then some 1 else none) :
    v = w := by
  have := congrFun h v
  by_contra hne
  simp [hne] at this

theorem sameObject_iff {cs : List (Cmd F)} {s : SState F} (h : Reaches cs s) {x y : Arg F} {q q' : SQ F}
    (hx : x.sevalUnc s.env = some q) (hy : y.sevalUnc s.env = some q') :
    (after cs).objId x = (after cs).objId y ↔ SameObject cs x y := by
  constructor
  · intro he
    have hqq := objId_eval h hx hy he
    subst hqq
    obtain ⟨k, rfl, hk⟩ := objId_spec h hx
    obtain ⟨l, rfl, hl⟩ := objId_spec h hy
    rw [hk, hl] at he
    injection he with he
    cases hv : q.var with
    | none =>
      rw [hv] at he
      injection he with he
      exact .inl (by rw [he])
    | some v =>
      obtain ⟨a1, c, a2, a3⟩ := h.wf.var q (sevalUnc_mem hx) v hv
      refine .inr ⟨c.tag, v, ?_, ?_, ?_, ?_⟩
      · rw [(h.read (c := .tag _) rfl).1]
        simp only [SState.step, SState.read, hx, specTag, hv, a2, PyRes.out]
      · rw [(h.read (c := .tag _) rfl).1]
        simp only [SState.step, SState.read, hy, specTag, hv, a2, PyRes.out]
      · rw [sees_derivatives h hx, a1]; rfl
      · rw [sees_derivatives h hy, a1]; rfl
  · rintro (rfl | ⟨t, v, h1, h2, h3, h4⟩)
    · rfl
    · obtain ⟨k, rfl, hk⟩ := objId_spec h hx
      obtain ⟨l, rfl, hl⟩ := objId_spec h hy
      obtain ⟨a, ha⟩ := sees_tag_var h hx h1
      obtain ⟨b, hb⟩ := sees_tag_var h hy h2
      rw [hk, hl, ha, hb]
      rw [sees_derivatives h hx, (h.wf.var q (sevalUnc_mem hx) a ha).1] at h3
      rw [sees_derivatives h hy, (h.wf.var q' (sevalUnc_mem hy) b hb).1] at h4
      injection h3 with h3
      injection h4 with h4
      rw [single_inj (F := F) (h3.trans h4.symm)]

/-- State during the deep copy of a list that starts in the state `s0`: `memo` are the originals and the copies. -/
structure Copying (m0 : Machine F) (s0 : SState F) (s : SState F) (memo : List (Arg F × Arg F)) : Prop where
  env : ∃ l, s.env = s0.env ++ l
  vars : ∃ l, s.vars = s0.vars ++ l
  copies : ∀ p ∈ memo, ∃ q q' ρ, p.1.sevalUnc s0.env = some q ∧ p.2.sevalUnc s.env = some q' ∧
    VarsRel ρ s0.vars s.vars ∧ SQRel ρ q q' ∧ ∀ v, q'.grad v ≠ none → s0.vars.length ≤ v ∧ v < s.vars.length
  distinct : memo.Pairwise fun a b => m0.objId a.1 ≠ m0.objId b.1 ∧
    ∀ q q', a.2.sevalUnc s.env = some q → b.2.sevalUnc s.env = some q' → ∀ v, q.grad v = none ∨ q'.grad v = none

theorem VarsRel.append {ρ : List (VarId × VarId)} {vars vars' : List (SVar F)} (h : VarsRel ρ vars vars') (l : List (SVar F)) :
    VarsRel ρ vars (vars' ++ l) := by
  refine ⟨h.one, fun v v' hv => ?_, fun v v' hv => ?_⟩
  · have := h.lt v v' hv
    rw [List.length_append]
    omega
  · rw [h.eq v v' hv, List.getElem?_append_left (h.lt v v' hv).2]

/-- One more object is copied. -/
theorem Copying.copy {m0 : Machine F} {cs0 : List (Cmd F)} (hm0 : m0 = after cs0) {s0 s : SState F} {cs : List (Cmd F)}
    {memo : List (Arg F × Arg F)} (h0 : Reaches cs0 s0) (hs : Reaches cs s)
    (h : Copying m0 s0 s memo) {x : Arg F} {q : SQ F} (hx : x.sevalUnc s0.env = some q)
    (hnew : ∀ p ∈ memo, m0.objId p.1 ≠ m0.objId x) :
    ∃ s', Reaches (cs ++ [.deepcopy x]) s' ∧ s'.env.length = s.env.length + 1 ∧
      Copying m0 s0 s' ((x, .ref s.env.length) :: memo) := by
  obtain ⟨e, he⟩ := h.env
  obtain ⟨l, hl⟩ := h.vars
  have hx1 : x.sevalUnc s.env = some q := by rw [he]; exact sevalUnc_append hx
  obtain ⟨s', h3, h4⟩ := hs.step (.deepcopy x)
  simp only [SpecStep, hx1] at h3
  obtain ⟨-, ρ, qs', hcopy, -, henv⟩ := h3
  have hrel := hcopy.rel
  obtain ⟨q', hq', rfl⟩ : ∃ q', SQRel ρ q q' ∧ qs' = [q'] := by
    cases hrel with
    | cons a b => cases b; exact ⟨_, a, rfl⟩
  obtain ⟨l', hl'⟩ := hcopy.old
  have hnext : (Arg.ref s.env.length : Arg F).sevalUnc s'.env = some q' := by
    rw [henv]
    simp [Arg.sevalUnc, Arg.seval]
  have hold : ∀ (y : Arg F) p, y.sevalUnc s.env = some p → y.sevalUnc s'.env = some p := by
    intro y p hy
    rw [henv]; exact sevalUnc_append hy
  have hk := h0.wf.keys q (sevalUnc_mem hx)
  have hlen : s0.vars.length ≤ s.vars.length := by rw [hl, List.length_append]; omega
  have hnewv : ∀ v, q'.grad v ≠ none → s.vars.length ≤ v ∧ v < s'.vars.length := by
    intro v hv
    obtain ⟨u, hu⟩ := hq'.grad.right v hv
    exact ⟨(hcopy.fresh u v hu).2.1, (hcopy.fresh u v hu).2.2.1⟩
  refine ⟨s', h4, by rw [henv]; simp, ⟨e ++ [some (.unc q')], by rw [henv, he]; simp⟩, ⟨l ++ l', by rw [hl', hl]; simp⟩, ?_, ?_⟩
  · intro p hp
    rcases List.mem_cons.1 hp with rfl | hp
    · refine ⟨q, q', ρ.filter (fun p => p.1 < s0.vars.length), hx, hnext, ⟨⟨?_, ?_⟩, ?_, ?_⟩, ⟨hq'.nom, ⟨?_, ?_, ?_⟩, ?_, hq'.novar⟩, ?_⟩
      · intro v a b ha hb
        exact hcopy.oneToOne.left v a b (List.mem_filter.1 ha).1 (List.mem_filter.1 hb).1
      · intro v a b ha hb
        exact hcopy.oneToOne.right v a b (List.mem_filter.1 ha).1 (List.mem_filter.1 hb).1
      · intro v v' hv
        obtain ⟨h1, h2⟩ := List.mem_filter.1 hv
        exact ⟨by simpa using h2, (hcopy.fresh v v' h1).2.2.1⟩
      · intro v v' hv
        obtain ⟨h1, h2⟩ := List.mem_filter.1 hv
        rw [(hcopy.fresh v v' h1).2.2.2, hl, List.getElem?_append_left (by simpa using h2)]
      · intro v v' hv
        exact hq'.grad.eq v v' (List.mem_filter.1 hv).1
      · intro v hv
        obtain ⟨v', hv'⟩ := hq'.grad.left v hv
        obtain ⟨d, hd⟩ := Option.ne_none_iff_exists'.mp hv
        exact ⟨v', List.mem_filter.2 ⟨hv', by simpa using hk v d hd⟩⟩
      · intro v' hv'
        obtain ⟨v, hv⟩ := hq'.grad.right v' hv'
        rw [← hq'.grad.eq v v' hv] at hv'
        obtain ⟨d, hd⟩ := Option.ne_none_iff_exists'.mp hv'
        exact ⟨v, List.mem_filter.2 ⟨hv, by simpa using hk v d hd⟩⟩
      · intro v hv
        obtain ⟨v', h1, h2⟩ := hq'.var v hv
        obtain ⟨-, c, hc, -⟩ := h0.wf.var q (sevalUnc_mem hx) v hv
        exact ⟨v', h1, List.mem_filter.2 ⟨h2, by simpa using (List.getElem?_eq_some_iff.mp hc).1⟩⟩
      · intro v hv
        have := hnewv v hv
        omega
    · obtain ⟨a, a', σ, h1, h2, h3, h4, h5⟩ := h.copies p hp
      refine ⟨a, a', σ, h1, hold _ _ h2, ?_, h4, ?_⟩
      · rw [hl']; exact h3.append l'
      · intro v hv
        have := h5 v hv
        rw [hl', List.length_append]
        omega
  · refine List.pairwise_cons.2 ⟨?_, ?_⟩
    · intro p hp
      refine ⟨fun h' => hnew p hp h'.symm, ?_⟩
      intro a b ha hb v
      rw [hnext] at ha
      injection ha with ha
      subst ha
      obtain ⟨_, b', σ, -, h2, -, -, h5⟩ := h.copies p hp
      rw [hold _ _ h2] at hb
      injection hb with hb
      subst hb
      by_cases hv : q'.grad v = none
      · exact .inl hv
      · right
        by_contra hc
        have := h5 v hc
        have := hnewv v hv
        omega
    · refine h.distinct.imp_of_mem ?_
      intro a b ha hb hab
      refine ⟨hab.1, ?_⟩
      intro p p' hp hp' v
      obtain ⟨_, a', _, -, h2, -⟩ := h.copies a ha
      obtain ⟨_, b', _, -, h3, -⟩ := h.copies b hb
      rw [hold _ _ h2] at hp
      rw [hold _ _ h3] at hp'
      injection hp with hp
      injection hp' with hp'
      subst hp hp'
      exact hab.2 _ _ h2 h3 v

theorem deepcopyList_spec {cs0 : List (Cmd F)} {s0 : SState F} (h0 : Reaches cs0 s0) (xs : List (Arg F))
    (hq : ∀ x ∈ xs, ∃ q, x.sevalUnc s0.env = some q) (cs : List (Cmd F)) (s : SState F) (memo : List (Arg F × Arg F))
    (hs : Reaches cs s) (h : Copying (after cs0) s0 s memo) :
    ∃ s' memo', Reaches (cs ++ ((after cs0).deepcopyList xs memo s.env.length).1) s' ∧ Copying (after cs0) s0 s' memo' ∧
      memo ⊆ memo' ∧
      List.Forall₂ (fun x y => ∃ p ∈ memo', p.2 = y ∧ (after cs0).objId p.1 = (after cs0).objId x) xs
        ((after cs0).deepcopyList xs memo s.env.length).2 := by
  induction xs generalizing cs s memo with
  | nil => exact ⟨s, memo, by simpa [Machine.deepcopyList] using hs, h, fun _ h => h, .nil⟩
  | cons x xs ih =>
    unfold Machine.deepcopyList
    cases hf : memo.find? (fun p => (after cs0).objId p.1 = (after cs0).objId x) with
    | some p =>
      obtain ⟨s', memo', h1, h2, h3, h4⟩ := ih (fun x hx => hq x (by simp [hx])) cs s memo hs h
      refine ⟨s', memo', h1, h2, h3, .cons ⟨p, h3 (List.mem_of_find?_eq_some hf), rfl, ?_⟩ h4⟩
      simpa using List.find?_some hf
    | none =>
      obtain ⟨q, hqx⟩ := hq x (by simp)
      obtain ⟨s1, g1, g2, g3⟩ := h.copy rfl h0 hs hqx (by
        intro p hp
        simpa using List.find?_eq_none.1 hf p hp)
      obtain ⟨s', memo', h1, h2, h3, h4⟩ := ih (fun x hx => hq x (by simp [hx])) _ s1 _ g1 g3
      rw [g2] at h1 h4
      refine ⟨s', memo', by simpa using h1, h2, fun p hp => h3 (by simp [hp]), .cons ⟨(x, .ref s.env.length), h3 (List.mem_cons_self), rfl, rfl⟩ h4⟩

theorem pairwise_cases {α : Type} {R : α → α → Prop} {l : List α} (h : l.Pairwise R) {a b : α} (ha : a ∈ l) (hb : b ∈ l)
    (hne : a ≠ b) : R a b ∨ R b a := by
  induction h with
  | nil => cases ha
  | cons h1 _ ih =>
    rcases List.mem_cons.1 ha with e | ha'
    · rcases List.mem_cons.1 hb with e' | hb'
      · exact absurd (e.trans e'.symm) hne
      · exact .inl (e ▸ h1 _ hb')
    · rcases List.mem_cons.1 hb with e' | hb'
      · exact .inr (e' ▸ h1 _ ha')
      · exact ih ha' hb'

/-- What the deep copy of a list gives. -/
theorem deepcopyOf_spec (cs : List (Cmd F)) (xs : List (Arg F)) (hq : ∀ x ∈ xs, IsQuantity cs x) :
    ∃ s s' memo, Reaches cs s ∧ Reaches (cs ++ (deepcopyOf cs xs).1) s' ∧ Copying (after cs) s s' memo ∧
      (deepcopyOf cs xs).2.length = xs.length ∧
      ∀ (i : Nat) (x y : Arg F), xs[i]? = some x → (deepcopyOf cs xs).2[i]? = some y → ∃ q q' ρ p, p ∈ memo ∧ p.2 = y ∧
        (after cs).objId p.1 = (after cs).objId x ∧ x.sevalUnc s.env = some q ∧ y.sevalUnc s'.env = some q' ∧
        VarsRel ρ s.vars s'.vars ∧ SQRel ρ q q' ∧ ∀ v, q'.grad v ≠ none → s.vars.length ≤ v := by
  obtain ⟨s, hs⟩ := Reaches.exists cs
  have hev : ∀ x ∈ xs, ∃ q, x.sevalUnc s.env = some q := by
    intro x hx
    obtain ⟨D, hD⟩ := hq x hx
    obtain ⟨q, h, -⟩ := hs.derivatives hD
    exact ⟨q, h⟩
  obtain ⟨s', memo, h1, h2, -, h4⟩ := deepcopyList_spec hs xs hev cs s [] hs
    ⟨⟨[], by simp⟩, ⟨[], by simp⟩, fun p hp => by simp at hp, List.Pairwise.nil⟩
  rw [hs.env_length] at h1 h4
  refine ⟨s, s', memo, hs, h1, h2, h4.length_eq.symm, ?_⟩
  intro i x y hx hy
  obtain ⟨hi, rfl⟩ := List.getElem?_eq_some_iff.mp hx
  obtain ⟨hj, rfl⟩ := List.getElem?_eq_some_iff.mp hy
  obtain ⟨p, hp, hpy, hpx⟩ := h4.get hi hj
  obtain ⟨q, hqx⟩ := hev _ (List.getElem_mem hi)
  obtain ⟨a, a', ρ, b1, b2, b3, b4, b5⟩ := h2.copies p hp
  obtain rfl := objId_eval hs b1 hqx hpx
  have hpy' : (deepcopyOf cs xs).2[i] = p.2 := hpy.symm
  exact ⟨a, a', ρ, p, hp, hpy, hpx, hqx, hpy'.symm ▸ b2, b3, b4, fun v hv => (b5 v hv).1⟩

/-- **C66** (partial: see `C66_copies_uncorrelated` and `C66_fails`). The deep copy of a list has copies as elements: same
nominal values, standard deviations and tags, independent from all the existing quantities. An object that is present
several times is copied once. -/
theorem C66_elements_partial (cs : List (Cmd F)) (xs : List (Arg F)) (hq : ∀ x ∈ xs, IsQuantity cs x) :
    (deepcopyOf cs xs).2.length = xs.length ∧
    (∀ (i : Nat) (x y : Arg F), xs[i]? = some x → (deepcopyOf cs xs).2[i]? = some y →
      sees (cs ++ (deepcopyOf cs xs).1) (.nominal y) = sees cs (.nominal x) ∧
      sees (cs ++ (deepcopyOf cs xs).1) (.stdDev y) = sees cs (.stdDev x) ∧
      sees (cs ++ (deepcopyOf cs xs).1) (.tag y) = sees cs (.tag x) ∧
      IndependentFrom cs (cs ++ (deepcopyOf cs xs).1) y) ∧
    (∀ (i j : Nat) (x x' y y' : Arg F), xs[i]? = some x → xs[j]? = some x' →
      (deepcopyOf cs xs).2[i]? = some y → (deepcopyOf cs xs).2[j]? = some y' → SameObject cs x x' → y = y') := by
  obtain ⟨s, s', memo, hs, hs', hc, hlen, h⟩ := deepcopyOf_spec cs xs hq
  refine ⟨hlen, ?_, ?_⟩
  · intro i x y hx hy
    obtain ⟨q, q', ρ, p, -, -, -, h1, h2, h3, h4, h5⟩ := h i x y hx hy
    obtain ⟨a1, a2, -, a4⟩ := sees_rel hs hs' h3 h1 h2 h4
    obtain ⟨l, hl⟩ := hc.env
    refine ⟨a1, a2, a4, independent_of_disjoint hs hs' hl h2 ?_⟩
    intro k hk v
    by_cases hv : q'.grad v = none
    · exact .inr hv
    · left
      have := h5 v hv
      cases hkv : k v with
      | none => rfl
      | some d =>
        have := hk v d hkv
        omega
  · intro i j x x' y y' hx hx' hy hy' hsame
    obtain ⟨q, _, _, p, hp, rfl, hpx, h1, -⟩ := h i x y hx hy
    obtain ⟨q', _, _, p', hp', rfl, hpx', h1', -⟩ := h j x' y' hx' hy'
    have he := (sameObject_iff hs h1 h1').2 hsame
    have hpp : p = p' := by
      by_contra hne
      rcases pairwise_cases hc.distinct hp hp' hne with hh | hh
      · exact hh.1 (hpx.trans (he.trans hpx'.symm))
      · exact hh.1 (hpx'.trans (he.symm.trans hpx.symm))
    rw [hpp]

/-- **C66 does not hold**: the copies of different objects never depend on a common variable, and have zero covariances,
whatever the correlations between the originals. -/
theorem C66_copies_uncorrelated (cs : List (Cmd F)) (xs : List (Arg F)) (hq : ∀ x ∈ xs, IsQuantity cs x)
    (i j : Nat) (x x' y y' : Arg F) (hx : xs[i]? = some x) (hx' : xs[j]? = some x')
    (hy : (deepcopyOf cs xs).2[i]? = some y) (hy' : (deepcopyOf cs xs).2[j]? = some y') (hne : ¬ SameObject cs x x') :
    (∃ D D', sees (cs ++ (deepcopyOf cs xs).1) (.derivatives y) = .dict D ∧
      sees (cs ++ (deepcopyOf cs xs).1) (.derivatives y') = .dict D' ∧ ∀ v, D v = none ∨ D' v = none) ∧
    ∃ a b, sees (cs ++ (deepcopyOf cs xs).1) (.covarianceMatrix [y, y']) = .matrix [[a, 0], [0, b]] := by
  obtain ⟨s, s', memo, hs, hs', hc, hlen, h⟩ := deepcopyOf_spec cs xs hq
  obtain ⟨q, c, _, p, hp, hpy, hpx, h1, h2, -⟩ := h i x y hx hy
  obtain ⟨q', c', _, p', hp', hpy', hpx', h1', h2', -⟩ := h j x' y' hx' hy'
  have hpp : p ≠ p' := by
    rintro rfl
    exact hne ((sameObject_iff hs h1 h1').1 (hpx.symm.trans hpx'))
  have hd : ∀ v, c.grad v = none ∨ c'.grad v = none := by
    subst hpy hpy'
    rcases pairwise_cases hc.distinct hp hp' hpp with hh | hh
    · exact hh.2 _ _ h2 h2'
    · exact fun v => (hh.2 _ _ h2' h2 v).symm
  refine ⟨⟨_, _, sees_derivatives hs' h2, sees_derivatives hs' h2', hd⟩, ?_⟩
  rw [(hs'.read (c := .covarianceMatrix [y, y']) rfl).1]
  simp only [SState.step, evalArgs, h2, h2', List.map_cons, List.map_nil, (specCov_disjoint (vars := s'.vars) hd).1,
    (specCov_disjoint (vars := s'.vars) hd).2]
  exact ⟨_, _, rfl⟩

/-- `x = ufloat(3, 2)`, `y = x + x`. -/
def exC66 : List (Cmd ZN) := [.ufloat (.fin 3) (.fin 2) (some "x"), .binop .add (.ref 0) (.ref 0)]

/-- `copy.deepcopy([x, y, x])`: the first and the last elements are the same object. -/
example : (∀ x ∈ [Arg.ref 0, .ref 1, .ref 0], IsQuantity exC66 x) ∧
    (deepcopyOf exC66 [.ref 0, .ref 1, .ref 0]).2 = [.ref 2, .ref 3, .ref 2] ∧ ¬ SameObject exC66 (.ref 0) (.ref 1) := by
  refine ⟨?_, rfl, ?_⟩
  · intro x hx
    simp only [List.mem_cons, List.not_mem_nil, or_false] at hx
    rcases hx with rfl | rfl | rfl <;> exact ⟨_, rfl⟩
  · rintro (h | ⟨t, v, -, h, -⟩)
    · cases h
    · cases h

/-- **C66 fails**: `copy.deepcopy([x, y])`, with `y = x + x`, loses the correlation between `x` and `y`. -/
theorem C66_fails :
    sees exC66 (.covarianceMatrix [.ref 0, .ref 1]) = .matrix [[.fin 4, .fin 8], [.fin 8, .fin 16]] ∧
    (deepcopyOf exC66 [.ref 0, .ref 1]).2 = [.ref 2, .ref 3] ∧
    sees (exC66 ++ (deepcopyOf exC66 [.ref 0, .ref 1]).1) (.covarianceMatrix [.ref 2, .ref 3]) =
      .matrix [[.fin 4, .fin 0], [.fin 0, .fin 16]] := by
  refine ⟨rfl, rfl, rfl⟩

end Unc
