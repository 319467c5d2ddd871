import Verif.Model.IntExpand
import Verif.Lemmas.Integers

/-
Lemmas for C94: simulation of `expand` with exceptions by the model without exceptions.
-/

namespace Unc

set_option autoImplicit false

section
variable {C F : Type} [PyFloat F] (O : CoefOps C) (R : C → F → Prop)

/-- Operations that succeed preserve the relation. -/
structure OpsRel : Prop where
  zero : R O.zero 0
  add : ∀ {a b c a' b'}, R a a' → R b b' → O.add a b = .ok c → R c (a' + b')
  mul : ∀ {a b c a' b'}, R a a' → R b b' → O.mul a b = .ok c → R c (a' * b')

def DRel : Derivs C → Derivs F → Prop := List.Forall₂ fun p q => p.1 = q.1 ∧ R p.2 q.2

inductive IRel : Item C → Item F → Prop
  | pair {c : C} {c' : F} (n : NodeId) (h : R c c') : IRel (.pair c n) (.pair c' n)
  | junk : IRel .junk .junk

inductive LRel : LC C → LC F → Prop
  | dict {d : Derivs C} {d' : Derivs F} (h : DRel R d d') : LRel (.dict d) (.dict d')
  | terms {ts : List (Item C)} {ts' : List (Item F)} (h : List.Forall₂ (IRel R) ts ts') : LRel (.terms ts) (.terms ts')

def HRel : Heap C → Heap F → Prop := List.Forall₂ (LRel R)

variable {O R}

theorem addToF_rel (hO : OpsRel O R) {v : VarId} {x : C} {x' : F} (hx : R x x') :
    ∀ {d : Derivs C} {d' : Derivs F}, DRel R d d' → ∀ {e}, addToF O d v x = .ok e → DRel R e (addTo d' v x') := by
  intro d d' h
  induction h with
  | nil =>
    intro e he
    unfold addToF at he
    cases ha : O.add O.zero x with
    | error => rw [ha] at he; cases he
    | ok y => rw [ha] at he; cases he; exact .cons ⟨rfl, hO.add hO.zero hx ha⟩ .nil
  | @cons p q d d' hp ht ih =>
    intro e he
    obtain ⟨u, y⟩ := p
    obtain ⟨u', y'⟩ := q
    obtain ⟨rfl, hy⟩ := hp
    simp only [addToF, addTo] at *
    by_cases huv : u = v
    · rw [if_pos huv] at he ⊢
      cases ha : O.add y x with
      | error => rw [ha] at he; cases he
      | ok z => rw [ha] at he; cases he; exact .cons ⟨rfl, hO.add hy hx ha⟩ ht
    · rw [if_neg huv] at he ⊢
      cases ha : addToF O d v x with
      | error => rw [ha] at he; cases he
      | ok z => rw [ha] at he; cases he; exact .cons ⟨rfl, hy⟩ (ih ha)

theorem addScaledF_rel (hO : OpsRel O R) {c : C} {c' : F} (hc : R c c') :
    ∀ {d : Derivs C} {d' : Derivs F}, DRel R d d' → ∀ {acc acc'}, DRel R acc acc' → ∀ {e}, addScaledF O c d acc = .ok e →
      DRel R e (addScaled c' d' acc') := by
  intro d d' h
  induction h with
  | nil => intro acc acc' ha e he; cases he; exact ha
  | @cons p q d d' hp ht ih =>
    intro acc acc' ha e he
    obtain ⟨u, y⟩ := p
    obtain ⟨u', y'⟩ := q
    obtain ⟨rfl, hy⟩ := hp
    simp only [addScaledF, addScaled] at *
    cases hm : O.mul c y with
    | error => rw [hm] at he; cases he
    | ok z =>
      simp only [hm] at he
      cases ht : addToF O acc u z with
      | error => rw [ht] at he; cases he
      | ok acc2 =>
        simp only [ht] at he
        exact ih (addToF_rel hO (hO.mul hc hy hm) ha ht) he

theorem pushScaledF_rel (hO : OpsRel O R) {c : C} {c' : F} (hc : R c c') :
    ∀ {l : List (Item C)} {l' : List (Item F)}, List.Forall₂ (IRel R) l l' → ∀ {ts ts'}, List.Forall₂ (IRel R) ts ts' →
      ∀ {us}, pushScaledF O c l ts = (us, .ok ()) →
      ∃ us', pushScaled c' l' ts' = (us', true) ∧ List.Forall₂ (IRel R) us us' := by
  intro l l' h
  induction h with
  | nil => intro ts ts' ht us hu; cases hu; exact ⟨_, rfl, ht⟩
  | cons hp _ ih =>
    intro ts ts' ht us hu
    cases hp with
    | junk => cases hu
    | @pair f f' n hf =>
      simp only [pushScaledF, pushScaled] at *
      cases hm : O.mul c f with
      | error => rw [hm] at hu; cases hu
      | ok g =>
        simp only [hm] at hu
        exact ih (.cons (.pair n (hO.mul hc hf hm)) ht) hu

theorem HRel.get {h : Heap C} {g : Heap F} (hh : HRel R h g) (i : NodeId) :
    (h[i]? = none ∧ g[i]? = none) ∨ ∃ a b, h[i]? = some a ∧ g[i]? = some b ∧ LRel R a b := by
  induction hh generalizing i with
  | nil => exact Or.inl ⟨rfl, rfl⟩
  | cons h1 _ ih =>
    cases i with
    | zero => exact Or.inr ⟨_, _, rfl, rfl, h1⟩
    | succ i => exact ih i

theorem HRel.set {h : Heap C} {g : Heap F} (hh : HRel R h g) (i : NodeId) {a : LC C} {b : LC F} (hab : LRel R a b) :
    HRel R (h.set i a) (g.set i b) := by
  induction hh generalizing i with
  | nil => exact .nil
  | cons h1 h2 ih =>
    cases i with
    | zero => exact .cons hab h2
    | succ i => exact .cons h1 (ih i)

theorem HRel.costs {h : Heap C} {g : Heap F} (hh : HRel R h g) : costs h = costs g := by
  have items : ∀ {ts : List (Item C)} {ts' : List (Item F)}, List.Forall₂ (IRel R) ts ts' → ∀ cs, itemsCost cs ts = itemsCost cs ts' := by
    intro ts ts' ht cs
    induction ht with
    | nil => rfl
    | cons h1 _ ih => cases h1 <;> simp only [itemsCost, ih]
  have key : ∀ cs, h.foldl (fun cs lc => cs ++ [nodeCost cs lc]) cs = g.foldl (fun cs lc => cs ++ [nodeCost cs lc]) cs := by
    induction hh with
    | nil => intro cs; rfl
    | cons h1 _ ih =>
      intro cs
      simp only [List.foldl_cons]
      rw [ih]
      congr 1
      cases h1 with
      | dict _ => rfl
      | terms ht => simp only [nodeCost, items ht cs]
  exact key []

/-- One iteration that does not raise an exception. -/
theorem expandStepF_rel (hO : OpsRel O R) {h : Heap C} {g : Heap F} (hh : HRel R h g) (i : NodeId) {d : Derivs C} {d' : Derivs F}
    (hd : DRel R d d') {h1 : Heap C} {o : StepOut C} (hs : expandStepF O h i d = (h1, o)) :
    (o = .done → ∃ g1, expandStep g i d' = (g1, .done) ∧ HRel R h1 g1) ∧
    (∀ e, o = .go e → ∃ g1 e', expandStep g i d' = (g1, .go e') ∧ HRel R h1 g1 ∧ DRel R e e') := by
  unfold expandStepF at hs
  unfold expandStep
  rcases hh.get i with ⟨a1, a2⟩ | ⟨a, b, a1, a2, a3⟩
  · rw [a1] at hs
    cases hs
    exact ⟨fun h => (by cases h), fun _ h => by cases h⟩
  · rw [a1] at hs
    rw [a2]
    cases a3 with
    | dict hdd =>
      cases hdd with
      | nil =>
        cases hs
        exact ⟨fun _ => ⟨_, rfl, hh.set i (.dict hd)⟩, fun _ h => by cases h⟩
      | cons _ _ =>
        cases hs
        exact ⟨fun h => (by cases h), fun _ h => by cases h⟩
    | terms ht =>
      cases ht with
      | nil =>
        cases hs
        exact ⟨fun _ => ⟨_, rfl, hh.set i (.dict hd)⟩, fun _ h => by cases h⟩
      | cons hp ht =>
        cases hp with
        | junk =>
          cases hs
          exact ⟨fun h => (by cases h), fun _ h => by cases h⟩
        | @pair c c' j hc =>
          have hh1 := hh.set i (.terms ht)
          simp only at hs ⊢
          rcases hh1.get j with ⟨b1, b2⟩ | ⟨a, b, b1, b2, b3⟩
          · rw [b1] at hs
            cases hs
            exact ⟨fun h => (by cases h), fun _ h => by cases h⟩
          · rw [b1] at hs
            rw [b2]
            cases b3 with
            | @dict dj dj' hdj =>
              simp only at hs ⊢
              cases ha : addScaledF O c dj d with
              | error e =>
                rw [ha] at hs
                cases hs
                exact ⟨fun h => (by cases h), fun _ h => by cases h⟩
              | ok d2 =>
                rw [ha] at hs
                cases hs
                exact ⟨fun h => (by cases h), fun _ h => by cases h; exact ⟨_, _, rfl, hh1, addScaledF_rel hO hc hdj hd ha⟩⟩
            | @terms tj tj' htj =>
              simp only at hs ⊢
              have hrev := List.rel_reverse htj
              cases hp : pushScaledF O c tj.reverse _ with
              | mk us r =>
                rw [hp] at hs
                cases r with
                | error e =>
                  cases hs
                  exact ⟨fun h => (by cases h), fun _ h => by cases h⟩
                | ok x =>
                  cases hs
                  obtain ⟨us', k1, k2⟩ := pushScaledF_rel hO hc hrev ht hp
                  rw [k1]
                  exact ⟨fun h => (by cases h), fun _ h => by cases h; exact ⟨_, _, rfl, hh1.set i (.terms k2), hd⟩⟩

theorem expandLoopF_rel (hO : OpsRel O R) : ∀ (fuel : ℕ) {h : Heap C} {g : Heap F}, HRel R h g → ∀ (i : NodeId)
    {d : Derivs C} {d' : Derivs F}, DRel R d d' → ∀ {h1 : Heap C}, expandLoopF O fuel h i d = (h1, .ok ()) →
    ∃ g1, expandLoop fuel g i d' = (g1, .ok ()) ∧ HRel R h1 g1 := by
  intro fuel
  induction fuel with
  | zero => intro h g _ i d d' _ h1 hs; cases hs
  | succ fuel ih =>
    intro h g hh i d d' hd h1 hs
    unfold expandLoopF at hs
    unfold expandLoop
    cases he : expandStepF O h i d with
    | mk h2 o =>
      obtain ⟨k1, k2⟩ := expandStepF_rel hO hh i hd he
      rw [he] at hs
      cases o with
      | done =>
        cases hs
        obtain ⟨g1, e1, e2⟩ := k1 rfl
        rw [e1]
        exact ⟨_, rfl, e2⟩
      | raise e => cases hs
      | go e =>
        obtain ⟨g1, e', e1, e2, e3⟩ := k2 e rfl
        rw [e1]
        exact ih e2 i e3 hs

/-- A reading that does not raise an exception. -/
theorem readDerivsF_rel (hO : OpsRel O R) {h : Heap C} {g : Heap F} (hh : HRel R h g) (i : NodeId) {h1 : Heap C} {D : Derivs C}
    (hs : readDerivsF O h i = (h1, .ok D)) : ∃ g1 D', readDerivs g i = (g1, .ok D') ∧ HRel R h1 g1 ∧ DRel R D D' := by
  unfold readDerivsF at hs
  unfold readDerivs
  rcases hh.get i with ⟨a1, a2⟩ | ⟨a, b, a1, a2, a3⟩
  · rw [a1] at hs
    cases hs
  · rw [a1] at hs
    rw [a2]
    cases a3 with
    | dict hd =>
      cases hs
      exact ⟨_, _, rfl, hh, hd⟩
    | terms ht =>
      simp only at hs ⊢
      cases he : expandLoopF O (fuelFor h i) h i [] with
      | mk h2 r =>
        rw [he] at hs
        cases r with
        | error e => cases hs
        | ok x =>
          obtain ⟨g1, k1, k2⟩ := expandLoopF_rel hO _ hh i (d' := []) .nil he
          have ef : fuelFor h i = fuelFor g i := by unfold fuelFor; rw [hh.costs]
          rw [ef] at k1
          unfold expand
          rw [k1]
          simp only at hs ⊢
          rcases k2.get i with ⟨b1, b2⟩ | ⟨a, b, b1, b2, b3⟩
          · rw [b1] at hs
            cases hs
          · rw [b1] at hs
            rw [b2]
            cases b3 with
            | dict hd => cases hs; exact ⟨_, _, rfl, k2, hd⟩
            | terms _ => cases hs

end

section
open Num

attribute [local irreducible] near ofInt conv

/-- The model without exceptions, for a coefficient: the same value, or `raised`. -/
def Coef.Is : Coef → Num → Prop
  | _, .raised => True
  | .int m, .int n => m = n
  | .flt x, .flt y => x = y
  | _, _ => False

theorem mk2_is {m n r : ℤ} : (Coef.int r).Is (mk2 m n r) := by
  unfold mk2 mk
  split
  · split
    · exact rfl
    · trivial
  · trivial

theorem Coef.is_cases {a : Coef} {b : Num} (h : a.Is b) :
    b = .raised ∨ (∃ n, a = .int n ∧ b = .int n) ∨ ∃ x, a = .flt x ∧ b = .flt x := by
  cases b with
  | raised => exact Or.inl rfl
  | int n =>
    cases a with
    | int m => cases h; exact Or.inr (Or.inl ⟨_, rfl, rfl⟩)
    | flt x => exact h.elim
  | flt y =>
    cases a with
    | int m => exact h.elim
    | flt x => cases h; exact Or.inr (Or.inr ⟨_, rfl, rfl⟩)

theorem withFloat_int {n : ℤ} {f : B64 → B64} {c : Coef} (h : (Coef.int n).withFloat f = .ok c) :
    ∃ x, ofInt n = some x ∧ c = .flt (f x) := by
  have e : (Coef.int n).withFloat f = match ofInt n with | some x => .ok (.flt (f x)) | none => .error .overflowError := rfl
  rw [e] at h
  generalize ofInt n = o at h ⊢
  cases o with
  | none => cases h
  | some x => cases h; exact ⟨x, rfl, rfl⟩

theorem mul_overflow {n : ℤ} (h : ofInt n = none) (y : B64) : Coef.mul (.int n) (.flt y) = .error .overflowError := by
  have e : Coef.mul (.int n) (.flt y) = match ofInt n with | some x => .ok (.flt (x * y)) | none => .error .overflowError := rfl
  rw [e, h]

theorem addScaled_overflow {n : ℤ} (h : ofInt n = none) (v : VarId) (y : B64) :
    addScaledF pythonOps (.int n) [(v, .flt y)] [] = .error .overflowError := by
  have e : pythonOps.mul = Coef.mul := rfl
  unfold addScaledF
  rw [e, mul_overflow h]

theorem total_int (f : B64 → B64 → B64) {n : ℤ} {x : B64} (y : B64) (h : ofInt n = some x) :
    (total f (.int n) (.flt y) = .flt (f x y) ∨ total f (.int n) (.flt y) = .raised) ∧
    (total f (.flt y) (.int n) = .flt (f y x) ∨ total f (.flt y) (.int n) = .raised) := by
  unfold total
  rw [conv_int, conv_flt]
  by_cases hn : n.natAbs ≤ 2 ^ 53
  · rw [if_pos hn]
    rw [ofInt_small hn] at h
    cases h
    exact ⟨Or.inl rfl, Or.inl rfl⟩
  · rw [if_neg hn]
    exact ⟨Or.inr rfl, Or.inr rfl⟩

theorem total_raised (f : B64 → B64 → B64) (a : Num) : total f .raised a = .raised ∧ total f a .raised = .raised := by
  unfold total
  rw [conv_raised]
  refine ⟨rfl, ?_⟩
  cases conv a <;> rfl

theorem is_or {b : Num} {y : B64} (h : b = .flt y ∨ b = .raised) : (Coef.flt y).Is b := by
  rcases h with rfl | rfl
  · exact rfl
  · trivial

theorem pythonOps_rel : OpsRel pythonOps Coef.Is where
  zero := rfl
  add {a b c a' b'} ha hb h := by
    change Coef.add a b = .ok c at h
    change c.Is (Num.add a' b')
    have hr : ∀ t, Num.add .raised t = .raised ∧ Num.add t .raised = .raised := by
      intro t
      constructor
      · exact (total_raised _ t).1
      · cases t <;> exact (total_raised _ _).2
    rcases Coef.is_cases ha with rfl | ⟨m, rfl, rfl⟩ | ⟨x, rfl, rfl⟩
    · rw [(hr _).1]; cases c <;> trivial
    · rcases Coef.is_cases hb with rfl | ⟨n, rfl, rfl⟩ | ⟨y, rfl, rfl⟩
      · rw [(hr _).2]; cases c <;> trivial
      · cases h; exact mk2_is
      · obtain ⟨x, h1, rfl⟩ := withFloat_int h
        exact is_or (total_int _ y h1).1
    · rcases Coef.is_cases hb with rfl | ⟨n, rfl, rfl⟩ | ⟨y, rfl, rfl⟩
      · rw [(hr _).2]; cases c <;> trivial
      · obtain ⟨y, h1, rfl⟩ := withFloat_int h
        exact is_or (total_int _ x h1).2
      · cases h
        refine is_or (Or.inl ?_)
        change total _ _ _ = _
        unfold total
        rw [conv_flt, conv_flt]
  mul {a b c a' b'} ha hb h := by
    change Coef.mul a b = .ok c at h
    change c.Is (Num.mul a' b')
    have hr : ∀ t, Num.mul .raised t = .raised ∧ Num.mul t .raised = .raised := by
      intro t
      cases t <;> exact ⟨rfl, rfl⟩
    rcases Coef.is_cases ha with rfl | ⟨m, rfl, rfl⟩ | ⟨x, rfl, rfl⟩
    · rw [(hr _).1]; cases c <;> trivial
    · rcases Coef.is_cases hb with rfl | ⟨n, rfl, rfl⟩ | ⟨y, rfl, rfl⟩
      · rw [(hr _).2]; cases c <;> trivial
      · cases h; exact mk2_is
      · obtain ⟨x, h1, rfl⟩ := withFloat_int h
        simp only [Num.mul, h1]
        exact rfl
    · rcases Coef.is_cases hb with rfl | ⟨n, rfl, rfl⟩ | ⟨y, rfl, rfl⟩
      · rw [(hr _).2]; cases c <;> trivial
      · obtain ⟨y, h1, rfl⟩ := withFloat_int h
        simp only [Num.mul, h1]
        exact rfl
      · cases h; exact rfl

end

end Unc
