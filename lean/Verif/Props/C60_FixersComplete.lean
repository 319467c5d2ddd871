import Verif.Props.C60_Fixers

/-
C60, completeness of the code updates of `lib1to2/fixes/`: which obsolete calls remain in an updated program.
-/

namespace Unc

set_option autoImplicit false

/-! ### Specification: obsolete calls -/

/-- `fn(...)` or `module.fn(...)`. -/
def IsCallTo (fn : String) (f : Ex) : Prop := f = .name fn ∨ ∃ o, f = .attr (.name o) fn

/-- `uarray(x)`: the nominal values and the standard deviations are a single argument. -/
def ObsoleteUarray (fn : String) (f : Ex) (k : List ArgKind) (args : List Ex) : Prop :=
  IsCallTo fn f ∧ ∃ x, k = [.pos] ∧ args = [x]

/-- `ufloat((n, s))`, `ufloat((n, s), tag)`, `ufloat("...")` and `ufloat("...", tag)`. -/
def ObsoleteUfloat (f : Ex) (k : List ArgKind) (args : List Ex) : Prop :=
  IsCallTo "ufloat" f ∧
    ∃ x, ((∃ a b, x = .tuple [a, b]) ∨ ∃ s, x = .str s) ∧
      ((k = [.pos] ∧ args = [x]) ∨ ∃ k2 t, k = [.pos, k2] ∧ args = [x, t])

/-- `e.std_dev()`, `e.set_std_dev(x)` and `e.set_std_dev(name=x)`. -/
def ObsoleteStdDev (f : Ex) (k : List ArgKind) (args : List Ex) : Prop :=
  (∃ e, f = .attr e "std_dev" ∧ k = [] ∧ args = []) ∨
    ∃ e x, f = .attr e "set_std_dev" ∧ (k = [.pos] ∨ ∃ n, k = [.kw n]) ∧ args = [x]

/-- `e.std_devs()`. -/
def ObsoleteStdDevs (f : Ex) (k : List ArgKind) (args : List Ex) : Prop :=
  ∃ e, f = .attr e "std_devs" ∧ k = [] ∧ args = []

mutual
/-- `P` holds for all the calls of an expression that are not followed by `.`, `(`, `[` or `**`. `alone`: the
expression itself is not. -/
def LastCalls (P : Ex → List ArgKind → List Ex → Prop) (alone : Bool) : Ex → Prop
  | .name _ => True
  | .str _ => True
  | .tuple l => LastCallsList P l
  | .attr e _ => LastCalls P false e
  | .call f k args => LastCalls P false f ∧ LastCallsList P args ∧ (alone = true → P f k args)
  | .trail e _ l => LastCalls P false e ∧ LastCallsList P l
  | .assign e _ x => LastCalls P false e ∧ LastCalls P true x
  | .assign2 e _ _ x => LastCalls P false e ∧ LastCalls P true x
  | .other _ l => LastCallsList P l

/-- Idem for a list of expressions. -/
def LastCallsList (P : Ex → List ArgKind → List Ex → Prop) : List Ex → Prop
  | [] => True
  | e :: l => LastCalls P true e ∧ LastCallsList P l
end

/-! ### `uarray()` and `umatrix()` -/

theorem fixUarrayNode_complete {fn : String} {f : Ex} {k : List ArgKind} {args : List Ex}
    (h1 : AllCalls (fun f k a => ¬ ObsoleteUarray fn f k a) f)
    (h2 : AllCallsList (fun f k a => ¬ ObsoleteUarray fn f k a) args) :
    AllCalls (fun f k a => ¬ ObsoleteUarray fn f k a) (fixUarrayNode fn (.call f k args)) := by
  by_cases hf : f = .name fn ∨ ∃ o, f = .attr (.name o) fn
  · cases hm : uarrayArgs k args with
    | none =>
      rw [fixUarrayNode_other (Or.inl hm)]
      refine ⟨h1, h2, ?_⟩
      rintro ⟨-, x, rfl, rfl⟩
      unfold uarrayArgs at hm
      split at hm
      · cases hm
      · cases hm
      · rename_i h3 h4; exact h4 _ _ rfl rfl
    | some r =>
      obtain ⟨k', a'⟩ := r
      rw [fixUarrayNode_some hm hf]
      unfold uarrayArgs at hm
      split at hm
      · cases hm
        refine ⟨h1, h2.1, ?_⟩
        rintro ⟨-, x, h, -⟩
        cases h
      · rename_i k0 x hnot
        cases hm
        refine ⟨h1, h2, ?_⟩
        rintro ⟨-, x, h, -⟩
        cases k0 <;> cases h
      · cases hm
  · rw [fixUarrayNode_other (Or.inr hf)]
    exact ⟨h1, h2, fun h => hf h.1⟩

mutual
theorem fixUarray_complete (fn : String) :
    ∀ e : Ex, AllCalls (fun f k a => ¬ ObsoleteUarray fn f k a) (fixUarray fn e)
  | .name s => trivial
  | .str s => trivial
  | .tuple l => by simpa only [fixUarray, AllCalls] using fixUarrayList_complete fn l
  | .attr e n => by simpa only [fixUarray, AllCalls] using fixUarray_complete fn e
  | .call f k args => by
    simp only [fixUarray]
    exact fixUarrayNode_complete (fixUarray_complete fn f) (fixUarrayList_complete fn args)
  | .trail e c l => by
    simp only [fixUarray, AllCalls]
    exact ⟨fixUarray_complete fn e, fixUarrayList_complete fn l⟩
  | .assign e n x => by
    simp only [fixUarray, AllCalls]
    exact ⟨fixUarray_complete fn e, fixUarray_complete fn x⟩
  | .assign2 e n m x => by
    simp only [fixUarray, AllCalls]
    exact ⟨fixUarray_complete fn e, fixUarray_complete fn x⟩
  | .other c l => by simpa only [fixUarray, AllCalls] using fixUarrayList_complete fn l

theorem fixUarrayList_complete (fn : String) :
    ∀ l : List Ex, AllCallsList (fun f k a => ¬ ObsoleteUarray fn f k a) (fixUarrayList fn l)
  | [] => trivial
  | e :: l => by
    simp only [fixUarrayList, AllCallsList]
    exact ⟨fixUarray_complete fn e, fixUarrayList_complete fn l⟩
end

/-- **C60**: no obsolete call to `uarray()` (or `umatrix()`) remains in an updated program. -/
theorem C60_uarray_complete (fn : String) (e : Ex) :
    AllCalls (fun f k a => ¬ ObsoleteUarray fn f k a) (fixUarray fn e) :=
  fixUarray_complete fn e

/-! ### `ufloat()` -/

theorem ufloatArgs_obsolete {f : Ex} {k : List ArgKind} {args : List Ex} (h : ObsoleteUfloat f k args) :
    (ufloatArgs k args).isSome := by
  obtain ⟨-, x, hx, h⟩ := h
  rcases hx with ⟨a, b, rfl⟩ | ⟨s, rfl⟩ <;> rcases h with ⟨rfl, rfl⟩ | ⟨k2, t, rfl, rfl⟩ <;> rfl

theorem fixUfloatNode_complete {f : Ex} {k : List ArgKind} {args : List Ex}
    (h1 : AllCalls (fun f k a => ¬ ObsoleteUfloat f k a) f)
    (h2 : AllCallsList (fun f k a => ¬ ObsoleteUfloat f k a) args)
    (h3 : ∀ a b, args = [.tuple [a, b]] → a.ufloatFirst = false) :
    AllCalls (fun f k a => ¬ ObsoleteUfloat f k a) (fixUfloatNode (.call f k args)) := by
  cases hm : ufloatArgs k args with
  | none =>
    rw [fixUfloatNode_none hm]
    refine ⟨h1, h2, fun h => ?_⟩
    have := ufloatArgs_obsolete h
    rw [hm] at this
    cases this
  | some r =>
    obtain ⟨g, k', a'⟩ := r
    have key : AllCallsList (fun f k a => ¬ ObsoleteUfloat f k a) a' ∧
        (g = "ufloat_fromstr" ∨ ∀ f, ¬ ObsoleteUfloat f k' a') := by
      unfold ufloatArgs at hm
      split at hm
      · rename_i a b
        cases hm
        refine ⟨h2.1, Or.inr fun f h => ?_⟩
        have := ufloatArgs_obsolete h
        rw [ufloatArgs_flat (h3 _ _ rfl)] at this
        cases this
      · rename_i k0 a b t
        cases hm
        refine ⟨⟨h2.1.1, h2.1.2.1, h2.2⟩, Or.inr fun f h => ?_⟩
        have := ufloatArgs_obsolete h
        cases this
      · cases hm
        exact ⟨h2, Or.inl rfl⟩
      · cases hm
        exact ⟨h2, Or.inl rfl⟩
      · cases hm
    have notFromstr : ∀ k a, ¬ ObsoleteUfloat (.name "ufloat_fromstr") k a := by
      rintro k a ⟨h | ⟨o, h⟩, -⟩
      · have := Ex.name.inj h; revert this; decide
      · cases h
    have notFromstr' : ∀ o k a, ¬ ObsoleteUfloat (.attr (.name o) "ufloat_fromstr") k a := by
      rintro o k a ⟨h | ⟨o, h⟩, -⟩
      · cases h
      · have := (Ex.attr.inj h).2; revert this; decide
    by_cases c1 : f = .name "ufloat"
    · subst c1
      simp only [fixUfloatNode, hm]
      refine ⟨trivial, key.1, ?_⟩
      rcases key.2 with rfl | h
      · exact notFromstr _ _
      · exact h _
    · by_cases c2 : ∃ o, f = .attr (.name o) "ufloat"
      · obtain ⟨o, rfl⟩ := c2
        simp only [fixUfloatNode, hm]
        refine ⟨trivial, key.1, ?_⟩
        rcases key.2 with rfl | h
        · exact notFromstr' _ _ _
        · exact h _
      · have : fixUfloatNode (.call f k args) = .call f k args := by
          unfold fixUfloatNode
          split
          · rename_i hx; cases hx; exact absurd rfl c1
          · rename_i hx; cases hx; exact absurd ⟨_, rfl⟩ c2
          · rfl
        rw [this]
        refine ⟨h1, h2, ?_⟩
        rintro ⟨h | h, -⟩
        · exact c1 h
        · exact c2 h

theorem UfloatFlatArgs.pair {args : List Ex} (h : UfloatFlatArgs args) {a b : Ex}
    (e : fixUfloatList args = [.tuple [a, b]]) : a.ufloatFirst = false := by
  match args, e, h with
  | [x], e, h =>
    simp only [fixUfloatList, List.cons.injEq, and_true] at e
    obtain ⟨l', rfl, hl'⟩ := fixUfloat_tuple e
    have h3 := congrArg List.length hl'
    rw [fixUfloatList_length] at h3
    match l', h3, hl', h with
    | [x1, x2], _, hl', h =>
      simp only [fixUfloatList, List.cons.injEq, and_true] at hl'
      rw [← hl'.1]
      exact fixUfloat_ufloatFirst h
  | x :: y :: l, e, _ => simp [fixUfloatList] at e

mutual
theorem fixUfloat_complete :
    ∀ e : Ex, UfloatFlat e → AllCalls (fun f k a => ¬ ObsoleteUfloat f k a) (fixUfloat e)
  | .name s, _ => trivial
  | .str s, _ => trivial
  | .tuple l, h => by simpa only [fixUfloat, AllCalls] using fixUfloatList_complete l h
  | .attr e n, h => by simpa only [fixUfloat, AllCalls] using fixUfloat_complete e h
  | .call f k args, h => by
    simp only [fixUfloat]
    exact fixUfloatNode_complete (fixUfloat_complete f h.1) (fixUfloatList_complete args h.2.1)
      fun a b e => h.2.2.pair e
  | .trail e c l, h => by
    simp only [fixUfloat, AllCalls]
    exact ⟨fixUfloat_complete e h.1, fixUfloatList_complete l h.2⟩
  | .assign e n x, h => by
    simp only [fixUfloat, AllCalls]
    exact ⟨fixUfloat_complete e h.1, fixUfloat_complete x h.2⟩
  | .assign2 e n m x, h => by
    simp only [fixUfloat, AllCalls]
    exact ⟨fixUfloat_complete e h.1, fixUfloat_complete x h.2⟩
  | .other c l, h => by simpa only [fixUfloat, AllCalls] using fixUfloatList_complete l h

theorem fixUfloatList_complete :
    ∀ l : List Ex, UfloatFlatList l → AllCallsList (fun f k a => ¬ ObsoleteUfloat f k a) (fixUfloatList l)
  | [], _ => trivial
  | e :: l, h => by
    simp only [fixUfloatList, AllCallsList]
    exact ⟨fixUfloat_complete e h.1, fixUfloatList_complete l h.2⟩
end

/-- **C60**: no obsolete call to `ufloat()` remains in an updated program, provided that in the pairs `(a, b)`
given to `ufloat()`, `a` is neither a string literal nor a pair.

Missing: such pairs, because `ufloat(("1.23", 0.1))` becomes `ufloat("1.23", 0.1)`, which has the form of the
obsolete call `ufloat("1.23", tag)` (`C60_fails_ufloat_twice`). -/
theorem C60_ufloat_complete_partial (e : Ex) (h : UfloatFlat e) :
    AllCalls (fun f k a => ¬ ObsoleteUfloat f k a) (fixUfloat e) :=
  fixUfloat_complete e h

/-! ### Standard deviations -/

/-- The update of a call without obsolete parts has no obsolete part. -/
def NodeComplete (P : Ex → List ArgKind → List Ex → Prop) (node : Ex → Ex) : Prop :=
  ∀ f k args, LastCalls P false f → LastCallsList P args → LastCalls P true (node (.call f k args))

mutual
theorem fixPower_complete {P : Ex → List ArgKind → List Ex → Prop} {node : Ex → Ex} (hn : NodeComplete P node) :
    ∀ (e : Ex) (b : Bool), LastCalls P b (fixPower node b e)
  | .name s, _ => trivial
  | .str s, _ => trivial
  | .tuple l, _ => by simpa only [fixPower, LastCalls] using fixPowerList_complete hn l
  | .attr e n, _ => by simpa only [fixPower, LastCalls] using fixPower_complete hn e false
  | .call f k args, b => by
    have e1 := fixPower_complete hn f false
    have e2 := fixPowerList_complete hn args
    cases b
    · simp only [fixPower, Bool.false_eq_true, if_false]
      exact ⟨e1, e2, fun h => absurd h (by decide)⟩
    · simp only [fixPower, if_true]
      exact hn _ _ _ e1 e2
  | .trail e c l, _ => by
    simp only [fixPower, LastCalls]
    exact ⟨fixPower_complete hn e false, fixPowerList_complete hn l⟩
  | .assign e n x, _ => by
    simp only [fixPower, LastCalls]
    exact ⟨fixPower_complete hn e false, fixPower_complete hn x true⟩
  | .assign2 e n m x, _ => by
    simp only [fixPower, LastCalls]
    exact ⟨fixPower_complete hn e false, fixPower_complete hn x true⟩
  | .other c l, _ => by simpa only [fixPower, LastCalls] using fixPowerList_complete hn l

theorem fixPowerList_complete {P : Ex → List ArgKind → List Ex → Prop} {node : Ex → Ex}
    (hn : NodeComplete P node) : ∀ l : List Ex, LastCallsList P (fixPowerList node l)
  | [] => trivial
  | e :: l => by
    simp only [fixPowerList, LastCallsList]
    exact ⟨fixPower_complete hn e true, fixPowerList_complete hn l⟩
end

theorem nodeComplete_stdDev : NodeComplete (fun f k a => ¬ ObsoleteStdDev f k a) fixStdDevNode := by
  intro f k args h1 h2
  unfold fixStdDevNode
  split
  · rename_i hx; cases hx; exact h1
  · rename_i hx; cases hx; exact ⟨h1, h2.1⟩
  · rename_i hx; cases hx; exact ⟨h1, h2.1⟩
  · rename_i hx hy hz
    refine ⟨h1, h2, fun _ => ?_⟩
    rintro (⟨e, rfl, rfl, rfl⟩ | ⟨e, x, rfl, rfl | ⟨n, rfl⟩, rfl⟩)
    · exact hx _ rfl
    · exact hy _ _ rfl
    · exact hz _ _ _ rfl

theorem nodeComplete_stdDevs : NodeComplete (fun f k a => ¬ ObsoleteStdDevs f k a) fixStdDevsNode := by
  intro f k args h1 h2
  unfold fixStdDevsNode
  split
  · rename_i hx; cases hx; exact h1
  · rename_i hx
    refine ⟨h1, h2, fun _ => ?_⟩
    rintro ⟨e, rfl, rfl, rfl⟩
    exact hx _ rfl

/-- **C60**: in an updated program, obsolete calls `e.std_dev()`, `e.set_std_dev(x)` or `e.std_devs()` are followed by
`.`, `(`, `[` or `**`.

Full statement: no obsolete call remains (`C60_fails_std_dev_followed`). -/
theorem C60_std_dev_complete_partial (e : Ex) :
    LastCalls (fun f k a => ¬ ObsoleteStdDev f k a) true (fixStdDev e) ∧
    LastCalls (fun f k a => ¬ ObsoleteStdDevs f k a) true (fixStdDevs e) :=
  ⟨fixPower_complete nodeComplete_stdDev e true, fixPower_complete nodeComplete_stdDevs e true⟩

/-- **C60** is false for obsolete calls followed by something: `x.std_dev()**2` and `x.std_devs()[0]` are not updated,
whatever `x` is, the power and the index. -/
theorem C60_fails_std_dev_followed (x : String) (c n : Nat) :
    fixStdDev (.trail (.call (.attr (.name x) "std_dev") [] []) c [.other n []]) =
      .trail (.call (.attr (.name x) "std_dev") [] []) c [.other n []] ∧
    ¬ AllCalls (fun f k a => ¬ ObsoleteStdDev f k a)
      (fixStdDev (.trail (.call (.attr (.name x) "std_dev") [] []) c [.other n []])) ∧
    ¬ AllCalls (fun f k a => ¬ ObsoleteStdDevs f k a)
      (fixStdDevs (.trail (.call (.attr (.name x) "std_devs") [] []) c [.other n []])) := by
  refine ⟨rfl, fun h => ?_, fun h => ?_⟩
  · exact h.1.2.2 (Or.inl ⟨_, rfl, rfl, rfl⟩)
  · exact h.1.2.2 ⟨_, rfl, rfl, rfl⟩

/-- The example `unc.ufloat((1, 0.1), "x")` meets the hypothesis; the call is obsolete, and its update is not. -/
example : UfloatFlat exUfloat ∧ ¬ AllCalls (fun f k a => ¬ ObsoleteUfloat f k a) exUfloat ∧
    AllCalls (fun f k a => ¬ ObsoleteUfloat f k a) (fixUfloat exUfloat) := by
  have h : UfloatFlat exUfloat := by simp [exUfloat, UfloatFlat, UfloatFlatList, UfloatFlatArgs]
  refine ⟨h, fun h => ?_, C60_ufloat_complete_partial _ h⟩
  exact h.2.2 ⟨Or.inr ⟨_, rfl⟩, _, Or.inl ⟨_, _, rfl⟩, Or.inr ⟨_, _, rfl, rfl⟩⟩

/-- `x.set_std_dev(x.std_dev())` has two obsolete calls. -/
example : ¬ LastCalls (fun f k a => ¬ ObsoleteStdDev f k a) true exSet ∧
    fixStdDev exSet = .assign (.name "x") "std_dev" (.attr (.name "x") "std_dev") :=
  ⟨fun h => h.2.2 rfl (Or.inr ⟨_, _, rfl, Or.inl rfl, rfl⟩), rfl⟩

/-- `x.y = uarray((1, 0.1))`. -/
example : ¬ AllCalls (fun f k a => ¬ ObsoleteUarray "uarray" f k a) (.assign (.name "x") "y" exUarray) :=
  fun h => h.2.2.2 ⟨Or.inl rfl, _, rfl, rfl⟩

end Unc
