import Verif.Spec.PyEval
import Verif.Props.C59_Ufloat

/-
C60: the code updates preserve the meaning of programs.
-/

namespace Unc

set_option autoImplicit false

section ufloat

variable {F : Type} [PyText F] {W V : Type}

/-- The calls to `ufloat()` for which the update keeps the meaning: if there is a tag, it is given as a second
positional argument or with the keyword `tag`; a second positional argument that follows a string is really
a tag (it is not a number). -/
def UfloatSafeArgs (I : Interp W V) (see : V → Obj F) : List ArgKind → List Ex → Prop
  | [.pos, k], [.tuple [_, _], _] => k = .pos ∨ k = .kw "tag"
  | [.pos, .pos], [.str _, t] => ∀ w v w', t.eval I w = (.ok v, w') → (see v).checkStd = .error .typeError
  | [.pos, k], [.str _, _] => k = .kw "tag"
  | _, _ => True

mutual
/-- All the calls to `ufloat()` in an expression are like this. -/
def UfloatSafe (I : Interp W V) (see : V → Obj F) : Ex → Prop
  | .name _ => True
  | .str _ => True
  | .tuple l => UfloatSafeList I see l
  | .attr e _ => UfloatSafe I see e
  | .call f k args => UfloatSafe I see f ∧ UfloatSafeList I see args ∧
      ((f = .name "ufloat" ∨ ∃ o, f = .attr (.name o) "ufloat") → UfloatSafeArgs I see k args)
  | .trail e _ l => UfloatSafe I see e ∧ UfloatSafeList I see l
  | .assign e _ x => UfloatSafe I see e ∧ UfloatSafe I see x
  | .assign2 e _ _ x => UfloatSafe I see e ∧ UfloatSafe I see x
  | .other _ l => UfloatSafeList I see l

def UfloatSafeList (I : Interp W V) (see : V → Obj F) : List Ex → Prop
  | [] => True
  | e :: l => UfloatSafe I see e ∧ UfloatSafeList I see l
end

theorem Run.bind_pure {W V V' : Type} (v : V) (f : V → Run W V') : (Run.bind (fun w => (.ok v, w)) f) = f v := rfl

theorem Run.bind_assoc {W V V' V'' : Type} (r : Run W V) (f : V → Run W V') (g : V' → Run W V'') :
    (r.bind f).bind g = r.bind fun v => (f v).bind g := by
  funext w
  simp only [Run.bind]
  cases r w with
  | mk a w' => cases a <;> rfl

theorem Run.bind_congr {W V V' : Type} {r : Run W V} {f g : V → Run W V'}
    (h : ∀ w v w', r w = (.ok v, w') → f v w' = g v w') : r.bind f = r.bind g := by
  funext w
  simp only [Run.bind]
  cases hr : r w with
  | mk a w' =>
    cases a with
    | error e => rfl
    | ok v => exact h w v w' hr

/-- The arguments that change: same call. -/
theorem ufloatArgs_eval {I : Interp W V} {see : V → Obj F} {made : Made F → Run W V} {ufl ufs : V}
    (h : UsesUfloat I see made ufl ufs) {kinds kinds' : List ArgKind} {args args' : List Ex} {f : String}
    (hm : ufloatArgs kinds args = some (f, kinds', args')) (hsafe : UfloatSafeArgs I see kinds args) :
    (f = "ufloat" ∧ (Run.all (Ex.evals I args')).bind (fun vs => I.call ufl (kinds'.zip vs)) =
      (Run.all (Ex.evals I args)).bind (fun vs => I.call ufl (kinds.zip vs))) ∨
    (f = "ufloat_fromstr" ∧ (Run.all (Ex.evals I args')).bind (fun vs => I.call ufs (kinds'.zip vs)) =
      (Run.all (Ex.evals I args)).bind (fun vs => I.call ufl (kinds.zip vs))) := by
  unfold ufloatArgs at hm
  split at hm
  · -- tuple
    rename_i a b
    cases hm
    left
    refine ⟨rfl, ?_⟩
    simp only [Ex.evals, Ex.eval, Run.all, Run.bind_assoc, Run.bind_pure, List.zip_cons_cons, List.zip_nil_left]
    refine Run.bind_congr fun w va w' _ => ?_
    refine congrFun (Run.bind_congr fun w vb w'' _ => ?_) _
    rw [h.call_ufloat _ va (some vb) none rfl, h.call_ufloat _ (I.tuple [va, vb]) none none rfl]
    simp only [Option.map_some, Option.map_none, Option.getD_some, Option.getD_none, h.tuple, List.map_cons,
      List.map_nil]
    rw [C59_tuple]
  · -- tuple, tag
    rename_i k a b t
    cases hm
    left
    refine ⟨rfl, ?_⟩
    simp only [Ex.evals, Ex.eval, Run.all, Run.bind_assoc, Run.bind_pure, List.zip_cons_cons, List.zip_nil_left]
    refine Run.bind_congr fun w va w' _ => ?_
    refine congrFun (Run.bind_congr fun w vb w'' _ => ?_) _
    refine congrFun (Run.bind_congr fun w vt w''' _ => ?_) _
    simp only [UfloatSafeArgs] at hsafe
    rcases hsafe with rfl | rfl
    · rw [h.call_ufloat _ va (some vb) (some vt) rfl, h.call_ufloat _ (I.tuple [va, vb]) (some vt) none rfl]
      simp only [Option.map_some, Option.map_none, Option.getD_some, Option.getD_none, h.tuple, List.map_cons,
        List.map_nil]
      rw [(C59_tuple_tag _ _ _).1]
    · rw [h.call_ufloat _ va (some vb) (some vt) rfl, h.call_ufloat _ (I.tuple [va, vb]) none (some vt) rfl]
      simp only [Option.map_some, Option.map_none, Option.getD_some, Option.getD_none, h.tuple, List.map_cons,
        List.map_nil]
      rw [(C59_tuple_tag _ _ _).2]
  · -- string
    rename_i s
    cases hm
    right
    refine ⟨rfl, ?_⟩
    simp only [Ex.evals, Ex.eval, Run.all, Run.bind_assoc, Run.bind_pure, List.zip_cons_cons, List.zip_nil_left]
    rw [h.call_fromstr _ (I.str s) none s rfl (h.str s), h.call_ufloat _ (I.str s) none none rfl]
    simp only [Option.map_none, Option.getD_none, h.str]
    rw [(C59_string s []).1]
  · -- string, tag
    rename_i k s t
    cases hm
    right
    refine ⟨rfl, ?_⟩
    simp only [Ex.evals, Ex.eval, Run.all, Run.bind_assoc, Run.bind_pure, List.zip_cons_cons, List.zip_nil_left]
    refine Run.bind_congr fun w vt w' ht => ?_
    by_cases hk : k = .pos
    · subst hk
      simp only [UfloatSafeArgs] at hsafe
      rw [h.call_fromstr _ (I.str s) (some vt) s rfl (h.str s), h.call_ufloat _ (I.str s) (some vt) none rfl]
      simp only [Option.map_some, Option.map_none, Option.getD_some, Option.getD_none, h.str]
      rw [ufloatCall_str s _ (hsafe w vt w' ht)]
      rfl
    · have hk2 : k = .kw "tag" := by
        cases k <;> first | exact absurd rfl hk | exact hsafe
      subst hk2
      rw [h.call_fromstr _ (I.str s) (some vt) s rfl (h.str s), h.call_ufloat _ (I.str s) none (some vt) rfl]
      simp only [Option.map_some, Option.map_none, Option.getD_some, Option.getD_none, h.str]
      rw [ufloatCall_str s _ rfl]
      cases see vt <;> rfl
  · cases hm

theorem fixUfloatNode_eval {I : Interp W V} {see : V → Obj F} {made : Made F → Run W V} {ufl ufs : V}
    (h : UsesUfloat I see made ufl ufs) {f : Ex} {kinds : List ArgKind} {args : List Ex}
    (hsafe : (f = .name "ufloat" ∨ ∃ o, f = .attr (.name o) "ufloat") → UfloatSafeArgs I see kinds args) :
    (fixUfloatNode (.call f kinds args)).eval I = (Ex.call f kinds args).eval I := by
  by_cases h1 : f = .name "ufloat"
  · subst h1
    simp only [fixUfloatNode]
    cases hm : ufloatArgs kinds args with
    | none => rfl
    | some r =>
      obtain ⟨g, k', a'⟩ := r
      have hu : I.name "ufloat" = fun w => (.ok ufl, w) := funext h.name_ufloat
      have hs : I.name "ufloat_fromstr" = fun w => (.ok ufs, w) := funext h.name_fromstr
      rcases ufloatArgs_eval h hm (hsafe (Or.inl rfl)) with ⟨rfl, e⟩ | ⟨rfl, e⟩
      · simp only [Ex.eval, hu, Run.bind_pure, e]
      · simp only [Ex.eval, hu, hs, Run.bind_pure, e]
  · by_cases h2 : ∃ o, f = .attr (.name o) "ufloat"
    · obtain ⟨o, rfl⟩ := h2
      simp only [fixUfloatNode]
      cases hm : ufloatArgs kinds args with
      | none => rfl
      | some r =>
        obtain ⟨g, k', a'⟩ := r
        simp only [Ex.eval, Run.bind_assoc]
        refine Run.bind_congr fun w v w' _ => ?_
        rcases ufloatArgs_eval h hm (hsafe (Or.inr ⟨o, rfl⟩)) with ⟨rfl, e⟩ | ⟨rfl, e⟩
        · rcases h.attr v w' with ⟨a1, a2⟩ | ⟨a1, er, w'', a2⟩
          · simp only [Run.bind, a1]
            exact congrFun e w'
          · simp only [Run.bind, a2]
        · rcases h.attr v w' with ⟨a1, a2⟩ | ⟨a1, er, w'', a2⟩
          · simp only [Run.bind, a1, a2]
            exact congrFun e w'
          · simp only [Run.bind, a1, a2]
    · have : fixUfloatNode (.call f kinds args) = .call f kinds args := by
        unfold fixUfloatNode
        split
        · rename_i hx; cases hx; exact absurd rfl h1
        · rename_i hx; cases hx; exact absurd ⟨_, rfl⟩ h2
        · rfl
      rw [this]

theorem fixUfloatNode_call (f : Ex) (k : List ArgKind) (a : List Ex) :
    ∃ f' k' a', fixUfloatNode (.call f k a) = .call f' k' a' := by
  unfold fixUfloatNode
  split
  · rename_i hx; split <;> exact ⟨_, _, _, rfl⟩
  · rename_i hx; split <;> exact ⟨_, _, _, rfl⟩
  · exact ⟨f, k, a, rfl⟩

theorem fixUfloat_name {e : Ex} {s : String} (h : fixUfloat e = .name s) : e = .name s := by
  cases e <;> simp only [fixUfloat] at h <;> try (cases h; done)
  · cases h; rfl
  · rename_i f k a
    obtain ⟨f', k', a', e⟩ := fixUfloatNode_call (fixUfloat f) k (fixUfloatList a)
    rw [e] at h; cases h

theorem fixUfloat_str {e : Ex} {s : Str} (h : fixUfloat e = .str s) : e = .str s := by
  cases e <;> simp only [fixUfloat] at h <;> try (cases h; done)
  · cases h; rfl
  · rename_i f k a
    obtain ⟨f', k', a', e⟩ := fixUfloatNode_call (fixUfloat f) k (fixUfloatList a)
    rw [e] at h; cases h

theorem fixUfloat_tuple {e : Ex} {l : List Ex} (h : fixUfloat e = .tuple l) :
    ∃ l', e = .tuple l' ∧ fixUfloatList l' = l := by
  cases e <;> simp only [fixUfloat] at h <;> try (cases h; done)
  · cases h; exact ⟨_, rfl, rfl⟩
  · rename_i f k a
    obtain ⟨f', k', a', e⟩ := fixUfloatNode_call (fixUfloat f) k (fixUfloatList a)
    rw [e] at h; cases h

theorem fixUfloat_attr {e e' : Ex} {n : String} (h : fixUfloat e = .attr e' n) :
    ∃ e0, e = .attr e0 n ∧ fixUfloat e0 = e' := by
  cases e <;> simp only [fixUfloat] at h <;> try (cases h; done)
  · cases h; exact ⟨_, rfl, rfl⟩
  · rename_i f k a
    obtain ⟨f', k', a', e⟩ := fixUfloatNode_call (fixUfloat f) k (fixUfloatList a)
    rw [e] at h; cases h

theorem fixUfloatList_length (l : List Ex) : (fixUfloatList l).length = l.length := by
  induction l with
  | nil => rfl
  | cons e l ih => simp [fixUfloatList, ih]

/-- The updated arguments are as safe as the arguments. -/
theorem UfloatSafeArgs.fixed {I : Interp W V} {see : V → Obj F} {k : List ArgKind} {args : List Ex}
    (h : UfloatSafeArgs I see k args) (he : Ex.evals I (fixUfloatList args) = Ex.evals I args) :
    UfloatSafeArgs I see k (fixUfloatList args) := by
  match args, h, he with
  | [], h, _ => simpa [fixUfloatList] using h
  | [x], h, _ =>
    unfold UfloatSafeArgs
    split <;> simp_all [fixUfloatList]
  | [x, t], h, he =>
    simp only [fixUfloatList, Ex.evals, List.cons.injEq, and_true] at he
    simp only [fixUfloatList]
    cases hx : fixUfloat x with
    | str s =>
      obtain rfl := fixUfloat_str hx
      unfold UfloatSafeArgs
      split
      · simp_all
      · rename_i hl2 _
        simp only [List.cons.injEq, and_true] at hl2
        rw [← hl2.2, he.2]
        exact h
      · rename_i k' _ _ _ hl2
        cases k' <;> simp_all [UfloatSafeArgs]
      · trivial
    | tuple l =>
      obtain ⟨l', rfl, hl⟩ := fixUfloat_tuple hx
      unfold UfloatSafeArgs
      split
      · rename_i hl2 _
        have h3 := congrArg List.length (Ex.tuple.inj (List.cons.inj hl2).1)
        rw [← hl, fixUfloatList_length] at h3
        match l', h3, h with
        | [a', b'], _, h => simpa [UfloatSafeArgs] using h
      all_goals simp_all
    | _ => unfold UfloatSafeArgs; split <;> simp_all
  | x :: y :: z :: l, h, _ =>
    unfold UfloatSafeArgs
    split <;> simp_all [fixUfloatList]

mutual
theorem fixUfloat_eval {I : Interp W V} {see : V → Obj F} {made : Made F → Run W V} {ufl ufs : V}
    (h : UsesUfloat I see made ufl ufs) : ∀ e : Ex, UfloatSafe I see e → (fixUfloat e).eval I = e.eval I
  | .name s, _ => rfl
  | .str s, _ => rfl
  | .tuple l, hs => by
    simp only [fixUfloat, Ex.eval, fixUfloatList_eval h l hs]
  | .attr e n, hs => by
    simp only [fixUfloat, Ex.eval, fixUfloat_eval h e hs]
  | .call f k args, hs => by
    obtain ⟨h1, h2, h3⟩ := hs
    have e1 := fixUfloat_eval h f h1
    have e2 := fixUfloatList_eval h args h2
    simp only [fixUfloat]
    rw [fixUfloatNode_eval h]
    · simp only [Ex.eval, e1, e2]
    · intro hf
      have hf' : f = .name "ufloat" ∨ ∃ o, f = .attr (.name o) "ufloat" := by
        rcases hf with hf | ⟨o, hf⟩
        · exact Or.inl (fixUfloat_name hf)
        · obtain ⟨e0, rfl, h0⟩ := fixUfloat_attr hf
          obtain rfl := fixUfloat_name h0
          exact Or.inr ⟨o, rfl⟩
      exact (h3 hf').fixed e2
  | .trail e c l, hs => by
    simp only [fixUfloat, Ex.eval, fixUfloat_eval h e hs.1, fixUfloatList_eval h l hs.2]
  | .assign e n x, hs => by
    simp only [fixUfloat, Ex.eval, fixUfloat_eval h e hs.1, fixUfloat_eval h x hs.2]
  | .assign2 e n m x, hs => by
    simp only [fixUfloat, Ex.eval, fixUfloat_eval h e hs.1, fixUfloat_eval h x hs.2]
  | .other c l, hs => by
    simp only [fixUfloat, Ex.eval, fixUfloatList_eval h l hs]

theorem fixUfloatList_eval {I : Interp W V} {see : V → Obj F} {made : Made F → Run W V} {ufl ufs : V}
    (h : UsesUfloat I see made ufl ufs) :
    ∀ l : List Ex, UfloatSafeList I see l → Ex.evals I (fixUfloatList l) = Ex.evals I l
  | [], _ => rfl
  | e :: l, hs => by
    simp only [fixUfloatList, Ex.evals, fixUfloat_eval h e hs.1, fixUfloatList_eval h l hs.2]
end

/-- **C60**, for `ufloat()`: the update of a program preserves its meaning (effects and results), for any
state of the program, provided that the calls to `ufloat()` are safe.

Full statement: this condition is not needed, and a second update does nothing (`C60_fails_ufloat_number`,
`C60_fails_ufloat_twice`). -/
theorem C60_ufloat_partial {I : Interp W V} {see : V → Obj F} {made : Made F → Run W V} {ufl ufs : V}
    (h : UsesUfloat I see made ufl ufs) (e : Ex) (hs : UfloatSafe I see e) (w : W) :
    (fixUfloat e).eval I w = e.eval I w := congrFun (fixUfloat_eval h e hs) w

end ufloat

/-! ### Second update, for `ufloat()` -/

/-- An expression that `ufloat()` calls are updated for as a first argument: string literal or pair. -/
def Ex.ufloatFirst : Ex → Bool
  | .str _ => true
  | .tuple [_, _] => true
  | _ => false

/-- For an updated call with a pair `(a, b)`, `a` is neither a string literal nor a pair. -/
def UfloatFlatArgs : List Ex → Prop
  | [.tuple [a, _]] => a.ufloatFirst = false
  | _ => True

mutual
/-- All the calls are like this. -/
def UfloatFlat : Ex → Prop
  | .name _ => True
  | .str _ => True
  | .tuple l => UfloatFlatList l
  | .attr e _ => UfloatFlat e
  | .call f _ args => UfloatFlat f ∧ UfloatFlatList args ∧ UfloatFlatArgs args
  | .trail e _ l => UfloatFlat e ∧ UfloatFlatList l
  | .assign e _ x => UfloatFlat e ∧ UfloatFlat x
  | .assign2 e _ _ x => UfloatFlat e ∧ UfloatFlat x
  | .other _ l => UfloatFlatList l

def UfloatFlatList : List Ex → Prop
  | [] => True
  | e :: l => UfloatFlat e ∧ UfloatFlatList l
end

theorem fixUfloat_ufloatFirst {e : Ex} (h : e.ufloatFirst = false) : (fixUfloat e).ufloatFirst = false := by
  by_contra hc
  rw [Bool.not_eq_false] at hc
  unfold Ex.ufloatFirst at hc
  split at hc
  · rename_i hx
    rw [fixUfloat_str hx] at h
    cases h
  · rename_i hx
    obtain ⟨l', rfl, hl⟩ := fixUfloat_tuple hx
    have h3 := congrArg List.length hl
    rw [fixUfloatList_length] at h3
    match l', h3, h with
    | [a', b'], _, h => cases h
  · cases hc

theorem ufloatArgs_flat {k : ArgKind} {a b : Ex} (h : a.ufloatFirst = false) :
    ufloatArgs [.pos, k] [a, b] = none := by
  unfold ufloatArgs
  split
  · rename_i h1 h2; cases h1
  · rename_i h1 h2; cases h2; cases h
  · rename_i h1 h2; cases h2
  · rename_i h1 h2; cases h2; cases h
  · rfl

/-- What an update of the arguments gives is not updated again. -/
theorem ufloatArgs_twice {kinds k' : List ArgKind} {args a' : List Ex} {f : String}
    (hm : ufloatArgs kinds (fixUfloatList args) = some (f, k', a')) (hflat : UfloatFlatArgs args)
    (hfix : fixUfloatList (fixUfloatList args) = fixUfloatList args) :
    fixUfloatList a' = a' ∧ (f = "ufloat" → ufloatArgs k' a' = none) ∧ (f = "ufloat" ∨ f = "ufloat_fromstr") := by
  unfold ufloatArgs at hm
  split at hm
  · rename_i a b hl
    cases hm
    rw [hl] at hfix
    simp only [fixUfloatList, fixUfloat, List.cons.injEq, Ex.tuple.injEq, and_true] at hfix
    refine ⟨by simp only [fixUfloatList, hfix], fun _ => ufloatArgs_flat ?_, Or.inl rfl⟩
    match args, hl, hflat with
    | [x], hl, hflat =>
      simp only [fixUfloatList, List.cons.injEq, and_true] at hl
      obtain ⟨l', rfl, hl'⟩ := fixUfloat_tuple hl
      have h3 := congrArg List.length hl'
      rw [fixUfloatList_length] at h3
      match l', h3, hl', hflat with
      | [x1, x2], _, hl', hflat =>
        simp only [fixUfloatList, List.cons.injEq, and_true] at hl'
        rw [← hl'.1]
        exact fixUfloat_ufloatFirst hflat
    | x :: y :: l, hl, _ => simp [fixUfloatList] at hl
  · rename_i k a b t hl
    cases hm
    rw [hl] at hfix
    simp only [fixUfloatList, fixUfloat, List.cons.injEq, Ex.tuple.injEq, and_true] at hfix
    exact ⟨by simp only [fixUfloatList, hfix], fun _ => rfl, Or.inl rfl⟩
  · rename_i str hl
    cases hm
    exact ⟨rfl, fun h => absurd h (by decide), Or.inr rfl⟩
  · rename_i k str t hl
    cases hm
    rw [hl] at hfix
    exact ⟨hfix, fun h => absurd h (by decide), Or.inr rfl⟩
  · cases hm

theorem fixUfloatNode_none {f : Ex} {kinds : List ArgKind} {args : List Ex} (h : ufloatArgs kinds args = none) :
    fixUfloatNode (.call f kinds args) = .call f kinds args := by
  unfold fixUfloatNode
  split
  · rename_i hx; cases hx; rw [h]
  · rename_i hx; cases hx; rw [h]
  · rfl

theorem fixUfloatNode_twice {f : Ex} {k k' : List ArgKind} {args a' : List Ex} {g : String}
    (e1 : fixUfloat f = f) (e2 : fixUfloatList args = args) (hm : ufloatArgs k args = some (g, k', a'))
    (i1 : fixUfloatList a' = a') (i2 : g = "ufloat" → ufloatArgs k' a' = none)
    (i3 : g = "ufloat" ∨ g = "ufloat_fromstr") :
    fixUfloat (fixUfloatNode (.call f k args)) = fixUfloatNode (.call f k args) := by
  by_cases h1 : f = .name "ufloat"
  · subst h1
    simp only [fixUfloatNode, hm, fixUfloat, i1]
    rcases i3 with rfl | rfl
    · simp only [i2 rfl]
    · rfl
  · by_cases h2 : ∃ o, f = .attr (.name o) "ufloat"
    · obtain ⟨o, rfl⟩ := h2
      simp only [fixUfloatNode, hm, fixUfloat, i1]
      rcases i3 with rfl | rfl
      · simp only [i2 rfl]
      · rfl
    · have : fixUfloatNode (.call f k args) = .call f k args := by
        unfold fixUfloatNode
        split
        · rename_i hx; cases hx; exact absurd rfl h1
        · rename_i hx; cases hx; exact absurd ⟨_, rfl⟩ h2
        · rfl
      rw [this]
      simp only [fixUfloat, e1, e2, this]

mutual
theorem fixUfloat_twice : ∀ e : Ex, UfloatFlat e → fixUfloat (fixUfloat e) = fixUfloat e
  | .name s, _ => rfl
  | .str s, _ => rfl
  | .tuple l, h => by simp only [fixUfloat, fixUfloatList_twice l h]
  | .attr e n, h => by simp only [fixUfloat, fixUfloat_twice e h]
  | .call f k args, h => by
    obtain ⟨h1, h2, h3⟩ := h
    have e1 := fixUfloat_twice f h1
    have e2 := fixUfloatList_twice args h2
    simp only [fixUfloat]
    cases hm : ufloatArgs k (fixUfloatList args) with
    | none => rw [fixUfloatNode_none hm]; simp only [fixUfloat, e1, e2, fixUfloatNode_none hm]
    | some r =>
      obtain ⟨g, k', a'⟩ := r
      obtain ⟨i1, i2, i3⟩ := ufloatArgs_twice hm h3 e2
      exact fixUfloatNode_twice e1 e2 hm i1 i2 i3
  | .trail e c l, h => by simp only [fixUfloat, fixUfloat_twice e h.1, fixUfloatList_twice l h.2]
  | .assign e n x, h => by simp only [fixUfloat, fixUfloat_twice e h.1, fixUfloat_twice x h.2]
  | .assign2 e n m x, h => by simp only [fixUfloat, fixUfloat_twice e h.1, fixUfloat_twice x h.2]
  | .other c l, h => by simp only [fixUfloat, fixUfloatList_twice l h]

theorem fixUfloatList_twice : ∀ l : List Ex, UfloatFlatList l →
    fixUfloatList (fixUfloatList l) = fixUfloatList l
  | [], _ => rfl
  | e :: l, h => by simp only [fixUfloatList, fixUfloat_twice e h.1, fixUfloatList_twice l h.2]
end

/-- **C60**, for `ufloat()`: a second update does nothing, provided that in the pairs `(a, b)` given to
`ufloat()`, `a` is neither a string literal nor a pair. -/
theorem C60_ufloat_twice_partial (e : Ex) (h : UfloatFlat e) : fixUfloat (fixUfloat e) = fixUfloat e :=
  fixUfloat_twice e h

/-! ### Standard deviations -/

section stdDev

variable {W V : Type}

mutual
/-- All the calls in an expression satisfy a condition. -/
def AllCalls (P : Ex → List ArgKind → List Ex → Prop) : Ex → Prop
  | .name _ => True
  | .str _ => True
  | .tuple l => AllCallsList P l
  | .attr e _ => AllCalls P e
  | .call f k args => AllCalls P f ∧ AllCallsList P args ∧ P f k args
  | .trail e _ l => AllCalls P e ∧ AllCallsList P l
  | .assign e _ x => AllCalls P e ∧ AllCalls P x
  | .assign2 e _ _ x => AllCalls P e ∧ AllCalls P x
  | .other _ l => AllCallsList P l

def AllCallsList (P : Ex → List ArgKind → List Ex → Prop) : List Ex → Prop
  | [] => True
  | e :: l => AllCalls P e ∧ AllCallsList P l
end

/-- In calls `e.std_dev()`, `e` is a number with uncertainty; in calls `e.set_std_dev(x)`, `e` is a variable and
it does not matter whether `e` or `x` is evaluated first; there is no call `e.set_std_dev(value=x)`. -/
def StdDevSafe (I : Interp W V) (isU isVar : V → Prop) : Ex → List ArgKind → List Ex → Prop
  | .attr e "std_dev", [], [] => ∀ w v w', e.eval I w = (.ok v, w') → isU v
  | .attr e "set_std_dev", [.pos], [x] =>
      (∀ w v w', e.eval I w = (.ok v, w') → isVar v) ∧ Run.AnyOrder (e.eval I) (x.eval I)
  | .attr _ "set_std_dev", [.kw _], [_] => False
  | _, _, _ => True

/-- In calls `e.std_devs()`, `e` is a matrix of numbers with uncertainties. -/
def StdDevsSafe (I : Interp W V) (isU : V → Prop) : Ex → List ArgKind → List Ex → Prop
  | .attr e "std_devs", [], [] => ∀ w v w', e.eval I w = (.ok v, w') → isU v
  | _, _, _ => True

theorem fixPower_attr {node : Ex → Ex} {e e' : Ex} {n : String} (h : fixPower node false e = .attr e' n) :
    ∃ e0, e = .attr e0 n ∧ fixPower node false e0 = e' := by
  cases e <;> simp only [fixPower, Bool.false_eq_true, if_false] at h <;> try (cases h; done)
  cases h; exact ⟨_, rfl, rfl⟩

/-- An update of nodes that preserves the meaning preserves it when it is applied to an expression. -/
def NodeKeeps (I : Interp W V) (P : Ex → List ArgKind → List Ex → Prop) (node : Ex → Ex) : Prop :=
  ∀ f k args, P f k args → (node (.call f k args)).eval I = (Ex.call f k args).eval I

/-- The condition is still true for updated expressions. -/
def Stable (I : Interp W V) (P : Ex → List ArgKind → List Ex → Prop) : Prop :=
  (∀ f k args args', Ex.evals I args' = Ex.evals I args → P f k args → P f k args') ∧
  (∀ e e' n k args, e'.eval I = e.eval I → P (.attr e n) k args → P (.attr e' n) k args) ∧
  (∀ f k args, (∀ e n, f ≠ .attr e n) → P f k args)

mutual
theorem fixPower_eval {I : Interp W V} {P : Ex → List ArgKind → List Ex → Prop} {node : Ex → Ex}
    (hn : NodeKeeps I P node) (hp : Stable I P) :
    ∀ (e : Ex) (b : Bool), AllCalls P e → (fixPower node b e).eval I = e.eval I
  | .name s, _, _ => rfl
  | .str s, _, _ => rfl
  | .tuple l, _, hs => by simp only [fixPower, Ex.eval, fixPowerList_eval hn hp l hs]
  | .attr e n, _, hs => by simp only [fixPower, Ex.eval, fixPower_eval hn hp e false hs]
  | .call f k args, b, hs => by
    obtain ⟨h1, h2, h3⟩ := hs
    have e1 := fixPower_eval hn hp f false h1
    have e2 := fixPowerList_eval hn hp args h2
    simp only [fixPower]
    have h4 : (Ex.call (fixPower node false f) k (fixPowerList node args)).eval I = (Ex.call f k args).eval I := by
      simp only [Ex.eval, e1, e2]
    split_ifs
    · rw [hn, h4]
      refine hp.1 _ _ _ _ e2 ?_
      by_cases hf : ∃ e n, fixPower node false f = .attr e n
      · obtain ⟨e', n, hf⟩ := hf
        obtain ⟨e0, rfl, he⟩ := fixPower_attr hf
        rw [hf]
        refine hp.2.1 e0 e' n _ _ ?_ h3
        rw [← he]
        exact fixPower_eval hn hp e0 false h1
      · push Not at hf
        exact hp.2.2 _ _ _ hf
    · exact h4
  | .trail e c l, _, hs => by
    simp only [fixPower, Ex.eval, fixPower_eval hn hp e false hs.1, fixPowerList_eval hn hp l hs.2]
  | .assign e n x, _, hs => by
    simp only [fixPower, Ex.eval, fixPower_eval hn hp e false hs.1, fixPower_eval hn hp x true hs.2]
  | .assign2 e n m x, _, hs => by
    simp only [fixPower, Ex.eval, fixPower_eval hn hp e false hs.1, fixPower_eval hn hp x true hs.2]
  | .other c l, _, hs => by simp only [fixPower, Ex.eval, fixPowerList_eval hn hp l hs]

theorem fixPowerList_eval {I : Interp W V} {P : Ex → List ArgKind → List Ex → Prop} {node : Ex → Ex}
    (hn : NodeKeeps I P node) (hp : Stable I P) :
    ∀ l : List Ex, AllCallsList P l → Ex.evals I (fixPowerList node l) = Ex.evals I l
  | [], _ => rfl
  | e :: l, hs => by
    simp only [fixPowerList, Ex.evals, fixPower_eval hn hp e true hs.1, fixPowerList_eval hn hp l hs.2]
end

theorem Ex.evals_length (I : Interp W V) (l : List Ex) : (Ex.evals I l).length = l.length := by
  induction l with
  | nil => rfl
  | cons e l ih => simp [Ex.evals, ih]

theorem stable_stdDev (I : Interp W V) (isU isVar : V → Prop) : Stable I (StdDevSafe I isU isVar) := by
  refine ⟨?_, ?_, ?_⟩
  · intro f k args args' he h
    have hl := congrArg List.length he
    rw [Ex.evals_length, Ex.evals_length] at hl
    unfold StdDevSafe
    split
    · match args, hl with
      | [], _ => exact h
    · match args, hl with
      | [x], _ =>
        simp only [Ex.evals, List.cons.injEq, and_true] at he
        rw [he]
        exact h
    · match args, hl with
      | [x], _ => exact h
    · trivial
  · intro e e' n k args he h
    unfold StdDevSafe
    split
    · rename_i hx; cases hx; rw [he]; exact h
    · rename_i hx; cases hx; rw [he]; exact h
    · rename_i hx; cases hx; exact h
    · trivial
  · intro f k args hf
    unfold StdDevSafe
    split
    · exact absurd rfl (hf _ _)
    · exact absurd rfl (hf _ _)
    · exact absurd rfl (hf _ _)
    · trivial

theorem stable_stdDevs (I : Interp W V) (isU : V → Prop) : Stable I (StdDevsSafe I isU) := by
  refine ⟨?_, ?_, ?_⟩
  · intro f k args args' he h
    have hl := congrArg List.length he
    rw [Ex.evals_length, Ex.evals_length] at hl
    unfold StdDevsSafe
    split
    · match args, hl with
      | [], _ => exact h
    · trivial
  · intro e e' n k args he h
    unfold StdDevsSafe
    split
    · rename_i hx; cases hx; rw [he]; exact h
    · trivial
  · intro f k args hf
    unfold StdDevsSafe
    split
    · exact absurd rfl (hf _ _)
    · trivial

theorem eval_callable {I : Interp W V} {isU : V → Prop} {n : String} (hu : CallableAttr I isU n) {e : Ex}
    (h : ∀ w v w', e.eval I w = (.ok v, w') → isU v) :
    (Ex.attr e n).eval I = (Ex.call (.attr e n) [] []).eval I := by
  simp only [Ex.eval, Ex.evals, Run.all, Run.bind_assoc, Run.bind_pure, List.zip_nil_left]
  refine Run.bind_congr fun w v w' hv => ?_
  exact (congrFun (hu v (h w v w' hv)) w').symm

theorem keeps_stdDev {I : Interp W V} {isU isVar : V → Prop} (hu : CallableAttr I isU "std_dev")
    (hv : SetsStdDev I isVar) : NodeKeeps I (StdDevSafe I isU isVar) fixStdDevNode := by
  intro f k args h
  unfold fixStdDevNode
  split
  · rename_i hx; cases hx
    exact eval_callable hu h
  · rename_i e x hx; cases hx
    obtain ⟨h1, h2⟩ := h
    simp only [Ex.eval, Ex.evals, Run.all, Run.bind_assoc, Run.bind_pure, List.zip_cons_cons, List.zip_nil_left]
    rw [← h2 fun v a => I.setattr v "std_dev" a]
    refine Run.bind_congr fun w v w' hv' => ?_
    obtain ⟨m, hm, hc⟩ := hv v (h1 w v w' hv')
    simp only [Run.bind, hm w', hc]
  · rename_i hx; cases hx; exact h.elim
  · rfl

theorem keeps_stdDevs {I : Interp W V} {isU : V → Prop} (hu : CallableAttr I isU "std_devs") :
    NodeKeeps I (StdDevsSafe I isU) fixStdDevsNode := by
  intro f k args h
  unfold fixStdDevsNode
  split
  · rename_i hx; cases hx
    exact eval_callable hu h
  · rfl

/-- **C60**, for `.std_dev()` and `.set_std_dev()`: the update of a program preserves its meaning, provided that
these methods are called on numbers with uncertainties and variables, that the order of evaluation of
`e` and `x` in `e.set_std_dev(x)` does not matter (it is reversed by the update), and that `set_std_dev()` is not called with a
keyword argument. (The updated program must also be valid: see `C60_std_dev_valid_partial`.)

Full statement: also with a keyword argument (`C60_fails_set_std_dev_keyword`). -/
theorem C60_std_dev_partial {I : Interp W V} {isU isVar : V → Prop} (hu : CallableAttr I isU "std_dev")
    (hv : SetsStdDev I isVar) (e : Ex) (hs : AllCalls (StdDevSafe I isU isVar) e) (w : W) :
    (fixStdDev e).eval I w = e.eval I w :=
  congrFun (fixPower_eval (keeps_stdDev hu hv) (stable_stdDev I isU isVar) e true hs) w

/-- **C60**, for `.std_devs()`. -/
theorem C60_std_devs {I : Interp W V} {isU : V → Prop} (hu : CallableAttr I isU "std_devs") (e : Ex)
    (hs : AllCalls (StdDevsSafe I isU) e) (w : W) : (fixStdDevs e).eval I w = e.eval I w :=
  congrFun (fixPower_eval (keeps_stdDevs hu) (stable_stdDevs I isU) e true hs) w

end stdDev

/-! Second update. -/

/-- A node whose parts do not change is not changed after its update. -/
def NodeTwice (node : Ex → Ex) : Prop :=
  ∀ f k args, fixPower node false f = f → fixPowerList node args = args →
    fixPower node true (node (.call f k args)) = node (.call f k args)

mutual
theorem fixPower_twice {node : Ex → Ex} (hn : NodeTwice node) :
    ∀ (e : Ex) (b : Bool), fixPower node b (fixPower node b e) = fixPower node b e
  | .name s, _ => rfl
  | .str s, _ => rfl
  | .tuple l, _ => by simp only [fixPower, fixPowerList_twice hn l]
  | .attr e n, _ => by simp only [fixPower, fixPower_twice hn e false]
  | .call f k args, b => by
    have e1 := fixPower_twice hn f false
    have e2 := fixPowerList_twice hn args
    cases b
    · simp only [fixPower, e1, e2, Bool.false_eq_true, if_false]
    · simp only [fixPower, if_true]
      exact hn _ _ _ e1 e2
  | .trail e c l, _ => by simp only [fixPower, fixPower_twice hn e false, fixPowerList_twice hn l]
  | .assign e n x, _ => by simp only [fixPower, fixPower_twice hn e false, fixPower_twice hn x true]
  | .assign2 e n m x, _ => by simp only [fixPower, fixPower_twice hn e false, fixPower_twice hn x true]
  | .other c l, _ => by simp only [fixPower, fixPowerList_twice hn l]

theorem fixPowerList_twice {node : Ex → Ex} (hn : NodeTwice node) :
    ∀ l : List Ex, fixPowerList node (fixPowerList node l) = fixPowerList node l
  | [] => rfl
  | e :: l => by simp only [fixPowerList, fixPower_twice hn e true, fixPowerList_twice hn l]
end

theorem fixStdDevNode_cases (f : Ex) (k : List ArgKind) (args : List Ex) :
    fixStdDevNode (.call f k args) = .call f k args ∨
    (∃ e, f = .attr e "std_dev" ∧ fixStdDevNode (.call f k args) = .attr e "std_dev") ∨
    (∃ e x, f = .attr e "set_std_dev" ∧ args = [x] ∧ fixStdDevNode (.call f k args) = .assign e "std_dev" x) ∨
    (∃ e n x, f = .attr e "set_std_dev" ∧ args = [x] ∧ fixStdDevNode (.call f k args) = .assign2 e "std_dev" n x) := by
  unfold fixStdDevNode
  split
  · rename_i hx; cases hx; exact Or.inr (Or.inl ⟨_, rfl, rfl⟩)
  · rename_i hx; cases hx; exact Or.inr (Or.inr (Or.inl ⟨_, _, rfl, rfl, rfl⟩))
  · rename_i hx; cases hx; exact Or.inr (Or.inr (Or.inr ⟨_, _, _, rfl, rfl, rfl⟩))
  · exact Or.inl rfl

theorem fixStdDevsNode_cases (f : Ex) (k : List ArgKind) (args : List Ex) :
    fixStdDevsNode (.call f k args) = .call f k args ∨
    (∃ e, f = .attr e "std_devs" ∧ fixStdDevsNode (.call f k args) = .attr e "std_devs") := by
  unfold fixStdDevsNode
  split
  · rename_i hx; cases hx; exact Or.inr ⟨_, rfl, rfl⟩
  · exact Or.inl rfl

theorem nodeTwice_stdDev : NodeTwice fixStdDevNode := by
  intro f k args h1 h2
  rcases fixStdDevNode_cases f k args with hx | ⟨e, rfl, hx⟩ | ⟨e, x, rfl, rfl, hx⟩ | ⟨e, n, x, rfl, rfl, hx⟩
  · rw [hx]; simp only [fixPower, h1, h2, hx, if_true]
  · rw [hx]
    simpa only [fixPower, Ex.attr.injEq, and_true] using h1
  · rw [hx]
    simp only [fixPower, Ex.attr.injEq, and_true] at h1
    simp only [fixPowerList, List.cons.injEq, and_true] at h2
    simp only [fixPower, h1, h2]
  · rw [hx]
    simp only [fixPower, Ex.attr.injEq, and_true] at h1
    simp only [fixPowerList, List.cons.injEq, and_true] at h2
    simp only [fixPower, h1, h2]

theorem nodeTwice_stdDevs : NodeTwice fixStdDevsNode := by
  intro f k args h1 h2
  rcases fixStdDevsNode_cases f k args with hx | ⟨e, rfl, hx⟩
  · rw [hx]; simp only [fixPower, h1, h2, hx, if_true]
  · rw [hx]
    simpa only [fixPower, Ex.attr.injEq, and_true] using h1

/-- **C60**, for `.std_dev()`, `.set_std_dev()` and `.std_devs()`: a second update does nothing. -/
theorem C60_std_dev_twice (e : Ex) :
    fixStdDev (fixStdDev e) = fixStdDev e ∧ fixStdDevs (fixStdDevs e) = fixStdDevs e :=
  ⟨fixPower_twice nodeTwice_stdDev e true, fixPower_twice nodeTwice_stdDevs e true⟩

/-! ### `uarray()` and `umatrix()` -/

section uarray

variable {W V : Type}

/-- Calls with a single argument have a positional argument, that can be unpacked to two values, the second one
not being `None`. -/
def UarraySafe (I : Interp W V) (fn : String) (isNone : V → Bool) (unpack : V → PyRes (V × V)) :
    Ex → List ArgKind → List Ex → Prop
  | f, [k], [x] => (f = .name fn ∨ ∃ o, f = .attr (.name o) fn) → k = .pos ∧ ∀ w v w', x.eval I w = (.ok v, w') →
      ∃ a b, unpack v = .ok (a, b) ∧ isNone b = false
  | _, _, _ => True

theorem uarrayArgs_eval {I : Interp W V} {fn : String} {isNone : V → Bool} {unpack : V → PyRes (V × V)}
    {make : V → V → Run W V} {ua : V} (h : UsesUarray I fn isNone unpack make ua) {kinds k' : List ArgKind}
    {args a' : List Ex} (hm : uarrayArgs kinds args = some (k', a')) {f : Ex}
    (hf : f = .name fn ∨ ∃ o, f = .attr (.name o) fn) (hs : UarraySafe I fn isNone unpack f kinds args) :
    (Run.all (Ex.evals I a')).bind (fun vs => I.call ua (k'.zip vs)) =
      (Run.all (Ex.evals I args)).bind (fun vs => I.call ua (kinds.zip vs)) := by
  unfold uarrayArgs at hm
  split at hm
  · rename_i a b
    cases hm
    have h2 := (hs hf).2
    simp only [Ex.eval, Ex.evals, Run.all, Run.bind_assoc, Run.bind_pure, List.zip_cons_cons, List.zip_nil_left]
      at h2 ⊢
    funext w
    replace h2 := h2 w
    simp only [Run.bind] at h2 ⊢
    cases ha : a.eval I w with
    | mk ra wa =>
      cases ra with
      | error e => rfl
      | ok va =>
        simp only [ha] at h2 ⊢
        cases hb : b.eval I wa with
        | mk rb wb =>
          cases rb with
          | error e => rfl
          | ok vb =>
            simp only [hb] at h2 ⊢
            obtain ⟨a1, b1, e1, e2⟩ := h2 _ _ rfl
            rw [h.tuple] at e1
            cases e1
            rw [h.call_two, h.call_one]
            simp [uarrayCall, h.tuple, e2]
  · rename_i k x hnot
    cases hm
    obtain ⟨rfl, h2⟩ := hs hf
    simp only [Ex.evals, Run.all, Run.bind_assoc, Run.bind_pure, List.zip_cons_cons, List.zip_nil_left,
      ArgKind.addStar]
    refine Run.bind_congr fun w v w' hv => ?_
    obtain ⟨a, b, e1, e2⟩ := h2 w v w' hv
    rw [h.call_star _ _ _ e1, h.call_two, h.call_one]
    simp [uarrayCall, e1, e2]
  · cases hm

theorem fixUarrayNode_some {fn : String} {f : Ex} {k k' : List ArgKind} {args a' : List Ex}
    (hm : uarrayArgs k args = some (k', a')) (hf : f = .name fn ∨ ∃ o, f = .attr (.name o) fn) :
    fixUarrayNode fn (.call f k args) = .call f k' a' := by
  rcases hf with rfl | ⟨o, rfl⟩ <;> simp [fixUarrayNode, hm]

theorem fixUarrayNode_other {fn : String} {f : Ex} {k : List ArgKind} {args : List Ex}
    (hf : uarrayArgs k args = none ∨ ¬ (f = .name fn ∨ ∃ o, f = .attr (.name o) fn)) :
    fixUarrayNode fn (.call f k args) = .call f k args := by
  unfold fixUarrayNode
  split
  · rename_i g kinds a hx; cases hx
    have : (if g = fn then uarrayArgs k args else none) = none := by
      split_ifs with hg
      · rcases hf with hf | hf
        · exact hf
        · exact absurd (Or.inl (by rw [hg])) hf
      · rfl
    rw [this]
  · rename_i o g kinds a hx; cases hx
    have : (if g = fn then uarrayArgs k args else none) = none := by
      split_ifs with hg
      · rcases hf with hf | hf
        · exact hf
        · exact absurd (Or.inr ⟨o, by rw [hg]⟩) hf
      · rfl
    rw [this]
  · rfl

theorem fixUarrayNode_eval {I : Interp W V} {fn : String} {isNone : V → Bool} {unpack : V → PyRes (V × V)}
    {make : V → V → Run W V} {ua : V} (h : UsesUarray I fn isNone unpack make ua) {f : Ex} {k : List ArgKind}
    {args : List Ex} (hs : UarraySafe I fn isNone unpack f k args) :
    (fixUarrayNode fn (.call f k args)).eval I = (Ex.call f k args).eval I := by
  by_cases hf : f = .name fn ∨ ∃ o, f = .attr (.name o) fn
  · cases hm : uarrayArgs k args with
    | none => rw [fixUarrayNode_other (Or.inl hm)]
    | some r =>
      obtain ⟨k', a'⟩ := r
      rw [fixUarrayNode_some hm hf]
      have e := uarrayArgs_eval h hm hf hs
      rcases hf with rfl | ⟨o, rfl⟩
      · have hu : I.name fn = fun w => (.ok ua, w) := funext h.name
        simp only [Ex.eval, hu, Run.bind_pure, e]
      · simp only [Ex.eval, Run.bind_assoc]
        refine Run.bind_congr fun w v w' _ => ?_
        rcases h.attr v w' with a1 | ⟨er, w'', a1⟩
        · simp only [Run.bind, a1]
          exact congrFun e w'
        · simp only [Run.bind, a1]
  · rw [fixUarrayNode_other (Or.inr hf)]

theorem fixUarrayNode_call (fn : String) (f : Ex) (k : List ArgKind) (a : List Ex) :
    ∃ k' a', fixUarrayNode fn (.call f k a) = .call f k' a' := by
  by_cases hf : f = .name fn ∨ ∃ o, f = .attr (.name o) fn
  · cases hm : uarrayArgs k a with
    | none => exact ⟨k, a, fixUarrayNode_other (Or.inl hm)⟩
    | some r => exact ⟨r.1, r.2, fixUarrayNode_some hm hf⟩
  · exact ⟨k, a, fixUarrayNode_other (Or.inr hf)⟩

theorem fixUarray_name {fn : String} {e : Ex} {s : String} (h : fixUarray fn e = .name s) : e = .name s := by
  cases e <;> simp only [fixUarray] at h <;> try (cases h; done)
  · cases h; rfl
  · rename_i f k a
    obtain ⟨k', a', e⟩ := fixUarrayNode_call fn (fixUarray fn f) k (fixUarrayList fn a)
    rw [e] at h; cases h

theorem fixUarray_attr {fn : String} {e e' : Ex} {n : String} (h : fixUarray fn e = .attr e' n) :
    ∃ e0, e = .attr e0 n ∧ fixUarray fn e0 = e' := by
  cases e <;> simp only [fixUarray] at h <;> try (cases h; done)
  · cases h; exact ⟨_, rfl, rfl⟩
  · rename_i f k a
    obtain ⟨k', a', e⟩ := fixUarrayNode_call fn (fixUarray fn f) k (fixUarrayList fn a)
    rw [e] at h; cases h

theorem fixUarray_fn {fn : String} {f : Ex}
    (hf : fixUarray fn f = .name fn ∨ ∃ o, fixUarray fn f = .attr (.name o) fn) :
    f = .name fn ∨ ∃ o, f = .attr (.name o) fn := by
  rcases hf with hf | ⟨o, hf⟩
  · exact Or.inl (fixUarray_name hf)
  · obtain ⟨e0, rfl, h0⟩ := fixUarray_attr hf
    obtain rfl := fixUarray_name h0
    exact Or.inr ⟨o, rfl⟩

mutual
theorem fixUarray_eval {I : Interp W V} {fn : String} {isNone : V → Bool} {unpack : V → PyRes (V × V)}
    {make : V → V → Run W V} {ua : V} (h : UsesUarray I fn isNone unpack make ua) :
    ∀ e : Ex, AllCalls (UarraySafe I fn isNone unpack) e → (fixUarray fn e).eval I = e.eval I
  | .name s, _ => rfl
  | .str s, _ => rfl
  | .tuple l, hs => by simp only [fixUarray, Ex.eval, fixUarrayList_eval h l hs]
  | .attr e n, hs => by simp only [fixUarray, Ex.eval, fixUarray_eval h e hs]
  | .call f k args, hs => by
    obtain ⟨h1, h2, h3⟩ := hs
    have e1 := fixUarray_eval h f h1
    have e2 := fixUarrayList_eval h args h2
    simp only [fixUarray]
    rw [fixUarrayNode_eval h]
    · simp only [Ex.eval, e1, e2]
    · have hl := congrArg List.length e2
      rw [Ex.evals_length, Ex.evals_length] at hl
      unfold UarraySafe
      split
      · rename_i k1 x1 hx
        intro hf
        match args, hl, h3, e2, hx with
        | [x], _, h3, e2, hx =>
          simp only [Ex.evals, fixUarrayList, List.cons.injEq, and_true] at e2 hx
          rw [← hx, e2]
          exact h3 (fixUarray_fn hf)
      · trivial
  | .trail e c l, hs => by
    simp only [fixUarray, Ex.eval, fixUarray_eval h e hs.1, fixUarrayList_eval h l hs.2]
  | .assign e n x, hs => by
    simp only [fixUarray, Ex.eval, fixUarray_eval h e hs.1, fixUarray_eval h x hs.2]
  | .assign2 e n m x, hs => by
    simp only [fixUarray, Ex.eval, fixUarray_eval h e hs.1, fixUarray_eval h x hs.2]
  | .other c l, hs => by simp only [fixUarray, Ex.eval, fixUarrayList_eval h l hs]

theorem fixUarrayList_eval {I : Interp W V} {fn : String} {isNone : V → Bool} {unpack : V → PyRes (V × V)}
    {make : V → V → Run W V} {ua : V} (h : UsesUarray I fn isNone unpack make ua) :
    ∀ l : List Ex, AllCallsList (UarraySafe I fn isNone unpack) l →
      Ex.evals I (fixUarrayList fn l) = Ex.evals I l
  | [], _ => rfl
  | e :: l, hs => by
    simp only [fixUarrayList, Ex.evals, fixUarray_eval h e hs.1, fixUarrayList_eval h l hs.2]
end

/-- **C60**, for `uarray()` and `umatrix()`: the update of a program preserves its meaning, provided that the
calls with a single argument have a positional argument, with two elements.

Full statement: a second update does nothing (`C60_fails_uarray_twice`). -/
theorem C60_uarray_partial {I : Interp W V} {fn : String} {isNone : V → Bool} {unpack : V → PyRes (V × V)}
    {make : V → V → Run W V} {ua : V} (h : UsesUarray I fn isNone unpack make ua) (e : Ex)
    (hs : AllCalls (UarraySafe I fn isNone unpack) e) (w : W) : (fixUarray fn e).eval I w = e.eval I w :=
  congrFun (fixUarray_eval h e hs) w

end uarray

/-- **C60** is false for a second update of `uarray(x)` (also for `umatrix(x)`): for any name `x`, the first
update gives `uarray(*x)`, and the second one `uarray(**x)`. -/
theorem C60_fails_uarray_twice (fn x : String) :
    fixUarray fn (.call (.name fn) [.pos] [.name x]) = .call (.name fn) [.star] [.name x] ∧
    fixUarray fn (fixUarray fn (.call (.name fn) [.pos] [.name x])) = .call (.name fn) [.dstar] [.name x] := by
  simp [fixUarray, fixUarrayList, fixUarrayNode, uarrayArgs, ArgKind.addStar]

/-! ### Example of a program that uses the package -/

/-- Values of the example. -/
inductive PV where
  | ufloat
  | fromstr
  | uarray
  /-- the module -/
  | unc
  /-- a number or a string, for instance -/
  | lit (o : Obj FNum)
  | tuple (l : List PV)
  /-- a variable -/
  | var (i : Nat)
  /-- `x.set_std_dev` -/
  | setter (i : Nat)

mutual
def PV.see : PV → Obj FNum
  | .lit o => o
  | .tuple l => .tuple (PV.seeList l)
  | _ => .other 0

def PV.seeList : List PV → List (Obj FNum)
  | [] => []
  | v :: l => v.see :: PV.seeList l
end

theorem PV.seeList_eq (l : List PV) : PV.seeList l = l.map PV.see := by
  induction l with
  | nil => rfl
  | cons v l ih => rw [PV.seeList, ih, List.map_cons]

/-- The state of the program: the variables created. -/
abbrev PW := List (Made FNum)

def pvMade (m : Made FNum) : Run PW PV := fun w => (.ok (.var w.length), w ++ [m])

def pvSet (i : Nat) (a : PV) : Run PW PV := fun w =>
  match a.see.checkStd with
  | .ok s => (.ok (.lit .none), w.modify i fun m => { m with std := s })
  | .error e => (.error e, w)

def pvNone : PV → Bool
  | .lit .none => true
  | _ => false

def pvUnpack : PV → PyRes (PV × PV)
  | .tuple [a, b] => .ok (a, b)
  | _ => .error .typeError

/-- Creation of an array (of length 1, in the example). -/
def pvArray (n s : PV) : Run PW PV := Run.made pvMade (variableInit n.see s.see .none)

def pvFail (e : PyErr) : Run PW PV := fun w => (.error e, w)

def pvCall (f : PV) (args : List (ArgKind × PV)) : Run PW PV :=
  match f with
  | .ufloat =>
    match ufloatParams args with
    | some (n, s, t) => Run.made pvMade (ufloatCall n.see ((s.map PV.see).getD .none) ((t.map PV.see).getD .none))
    | none => pvFail .typeError
  | .fromstr =>
    match fromstrParams args with
    | some (n, t) =>
      match n.see with
      | .str s => Run.made pvMade (Unc.fromstr s ((t.map PV.see).getD .none))
      | _ => pvFail .attributeError
    | none => pvFail .typeError
  | .uarray =>
    match args with
    | [(.pos, x)] => uarrayCall pvNone pvUnpack pvArray pvFail x none
    | [(.pos, x), (.pos, y)] => uarrayCall pvNone pvUnpack pvArray pvFail x (some y)
    | [(.star, x)] =>
      match pvUnpack x with
      | .ok (a, b) => uarrayCall pvNone pvUnpack pvArray pvFail a (some b)
      | .error e => pvFail e
    | _ => pvFail .typeError
  | .lit (.num x) => match args with
    | [] => fun w => (.ok (.lit (.num x)), w)
    | _ => pvFail .typeError
  | .setter i => match args with
    | [(.pos, a)] => pvSet i a
    | _ => pvFail .typeError
  | _ => pvFail .typeError

/-- Meaning of names (`ufloat`, `unc`, `x0`, `x1`...), of attributes, of the literals `c/10`... -/
def pvInterp : Interp PW PV where
  name s := fun w =>
    if s = "ufloat" then (.ok .ufloat, w)
    else if s = "ufloat_fromstr" then (.ok .fromstr, w)
    else if s = "uarray" then (.ok .uarray, w)
    else if s = "unc" then (.ok .unc, w)
    else if s = "x" then (.ok (.var 0), w)
    else (.error .attributeError, w)
  str s := .lit (.str s)
  tuple l := .tuple l
  attr v n := fun w =>
    match v with
    | .unc =>
      if n = "ufloat" then (.ok .ufloat, w)
      else if n = "ufloat_fromstr" then (.ok .fromstr, w)
      else if n = "uarray" then (.ok .uarray, w)
      else (.error .attributeError, w)
    | .var i =>
      if n = "std_dev" then
        match w[i]? with
        | some m => (.ok (.lit (.num m.std)), w)
        | none => (.error .attributeError, w)
      else if n = "set_std_dev" then (.ok (.setter i), w)
      else (.error .attributeError, w)
    | _ => (.error .attributeError, w)
  call := pvCall
  setattr v n a :=
    match v with
    | .var i => if n = "std_dev" then pvSet i a else pvFail .attributeError
    | _ => pvFail .attributeError
  setname _ v := fun w => (.ok v, w)
  trail _ _ _ := pvFail .typeError
  other c l := match l with
    | [] => fun w => (.ok (.lit (.num (.fin ((c : ℚ) / 10)))), w)
    | _ => pvFail .typeError

theorem pv_usesUfloat : UsesUfloat pvInterp PV.see pvMade .ufloat .fromstr where
  tuple l := by
    show PV.see (.tuple l) = _
    rw [PV.see, PV.seeList_eq]
  str s := by show PV.see (.lit (.str s)) = _; rw [PV.see]
  name_ufloat w := rfl
  name_fromstr w := rfl
  attr v w := by
    cases v with
    | unc => exact Or.inl ⟨rfl, rfl⟩
    | _ => exact Or.inr ⟨rfl, _, _, rfl⟩
  call_ufloat args n s t h := by
    show pvCall .ufloat args = _
    unfold pvCall
    simp only [h]
  call_fromstr args n t str h hs := by
    show pvCall .fromstr args = _
    unfold pvCall
    simp only [h, hs]

theorem pv_callable : CallableAttr pvInterp (fun v => ∃ i, v = .var i) "std_dev" := by
  rintro v ⟨i, rfl⟩
  funext w
  simp only [Run.bind, pvInterp, if_true]
  cases h : w[i]? with
  | none => rfl
  | some m => rfl

theorem pv_sets : SetsStdDev pvInterp (fun v => ∃ i, v = .var i) := by
  rintro v ⟨i, rfl⟩
  exact ⟨.setter i, fun w => rfl, fun a => rfl⟩

theorem pv_usesUarray : UsesUarray pvInterp "uarray" pvNone pvUnpack pvArray .uarray where
  tuple a b := rfl
  name w := rfl
  attr v w := by
    cases v with
    | unc => exact Or.inl rfl
    | _ => exact Or.inr ⟨_, _, rfl⟩
  call_one x := rfl
  call_two x y := rfl
  call_star x a b h := by
    simp only [pvInterp, pvCall, h]

/-- `unc.ufloat((1, 0.1), "x")`: the update is `unc.ufloat(1, 0.1, "x")`. -/
def exUfloat : Ex := .call (.attr (.name "unc") "ufloat") [.pos, .pos] [.tuple [.other 10 [], .other 1 []], .str "x".toList]

example : fixUfloat exUfloat =
    .call (.attr (.name "unc") "ufloat") [.pos, .pos, .pos] [.other 10 [], .other 1 [], .str "x".toList] := rfl

example : UfloatSafe (F := FNum) pvInterp PV.see exUfloat := by
  simp [exUfloat, UfloatSafe, UfloatSafeList, UfloatSafeArgs]

example : UfloatFlat exUfloat := by
  simp [exUfloat, UfloatFlat, UfloatFlatList, UfloatFlatArgs]

/-- `x.set_std_dev(x.std_dev())`: the update is `x.std_dev = x.std_dev`. -/
def exSet : Ex := .call (.attr (.name "x") "set_std_dev") [.pos] [.call (.attr (.name "x") "std_dev") [] []]

example : fixStdDev exSet = .assign (.name "x") "std_dev" (.attr (.name "x") "std_dev") := rfl

example : AllCalls (StdDevSafe pvInterp (fun v => ∃ i, v = .var i) (fun v => ∃ i, v = .var i)) exSet := by
  have hx : ∀ w, (Ex.name "x").eval pvInterp w = (.ok (.var 0), w) := fun w => rfl
  have hx' : (Ex.name "x").eval pvInterp = fun w => (.ok (.var 0), w) := rfl
  have h1 : ∀ w v w', (Ex.name "x").eval pvInterp w = (.ok v, w') → ∃ i, v = .var i := by
    intro w v w' h
    rw [hx] at h
    cases h
    exact ⟨0, rfl⟩
  refine ⟨trivial, ⟨⟨trivial, trivial, h1⟩, trivial⟩, h1, ?_⟩
  intro f
  rw [hx']
  rfl

/-- `uarray((1, 0.1))` (with an array of length 1): the update is `uarray(1, 0.1)`. -/
def exUarray : Ex := .call (.name "uarray") [.pos] [.tuple [.other 10 [], .other 1 []]]

example : fixUarray "uarray" exUarray = .call (.name "uarray") [.pos, .pos] [.other 10 [], .other 1 []] := by
  simp [exUarray, fixUarray, fixUarrayList, fixUarrayNode, uarrayArgs]

example : AllCalls (UarraySafe pvInterp "uarray" pvNone pvUnpack) exUarray := by
  refine ⟨trivial, ⟨⟨trivial, trivial, trivial⟩, trivial⟩, fun _ => ⟨rfl, fun w v w' h => ?_⟩⟩
  have h2 : (Ex.tuple [.other 10 [], .other 1 []]).eval pvInterp w =
    (.ok (.tuple [.lit (.num (.fin (((10 : Nat) : ℚ) / 10))), .lit (.num (.fin (((1 : Nat) : ℚ) / 10)))]), w) := rfl
  rw [h2] at h
  cases h
  exact ⟨_, _, rfl, rfl⟩

/-! ### Updates of `ufloat()` that do not preserve the meaning -/

/-- The numbers of the variables created by the evaluation of an expression. -/
def pvNumbers (e : Ex) : List (FNum × FNum) := (e.eval pvInterp []).2.map fun m => (m.nom, m.std)

/-- **C60** is false for a number that follows a string: `ufloat("1.23", 0.1)` (1.23±0.1) is updated to
`ufloat_fromstr("1.23", 0.1)` (1.23±0.01). -/
theorem C60_fails_ufloat_number :
    pvNumbers (.call (.name "ufloat") [.pos, .pos] [.str "1.23".toList, .other 1 []]) =
      [(.fin (123/100), .fin (1/10))] ∧
    pvNumbers (fixUfloat (.call (.name "ufloat") [.pos, .pos] [.str "1.23".toList, .other 1 []])) =
      [(.fin (123/100), .fin (1/100))] := by
  decide +kernel

/-- **C60** is false for a second update of `ufloat(("1.23", 0.1))`: the first update gives
`ufloat("1.23", 0.1)`, and the second one `ufloat_fromstr("1.23", 0.1)`, which is another number. -/
theorem C60_fails_ufloat_twice :
    let e := Ex.call (.name "ufloat") [.pos] [.tuple [.str "1.23".toList, .other 1 []]]
    pvNumbers e = [(.fin (123/100), .fin (1/10))] ∧
    pvNumbers (fixUfloat e) = [(.fin (123/100), .fin (1/10))] ∧
    pvNumbers (fixUfloat (fixUfloat e)) = [(.fin (123/100), .fin (1/100))] := by
  decide +kernel

end Unc
