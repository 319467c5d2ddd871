import Mathlib.Tactic.Linarith
import Mathlib.Tactic.Ring
import Mathlib.Tactic.Positivity
import Verif.Lemmas.LinComb
import Verif.Spec.Rounding

/-
Rounding errors of the lazy expansion of linear combinations: whatever was expanded before, the
derivatives read are within `Info.bound` of the exact ones.
-/

namespace Unc

set_option linter.unusedSectionVars false
set_option autoImplicit false

/-! ### Algebra of gradients -/

theorem Info.add_comm (a b : Info) : a.add b = b.add a := by
  simp only [Info.add, Info.mk.injEq]
  refine ⟨?_, ?_, ?_, ?_, ?_, propext and_comm⟩
  · ring
  · ring
  · ring
  · exact max_comm _ _
  · omega

theorem Info.add_assoc (a b c : Info) : (a.add b).add c = a.add (b.add c) := by
  simp only [Info.add, Info.mk.injEq]
  refine ⟨?_, ?_, ?_, ?_, ?_, propext and_assoc⟩
  · ring
  · ring
  · ring
  · exact max_assoc _ _ _
  · omega

theorem infoAdd_comm (a b : Option Info) : infoAdd a b = infoAdd b a := by
  cases a <;> cases b <;> simp [infoAdd, Info.add_comm]

theorem infoAdd_assoc (a b c : Option Info) : infoAdd (infoAdd a b) c = infoAdd a (infoAdd b c) := by
  cases a <;> cases b <;> cases c <;> simp [infoAdd, Info.add_assoc]

@[simp] theorem infoAdd_none (a : Option Info) : infoAdd a none = a := by cases a <;> rfl
@[simp] theorem none_infoAdd (a : Option Info) : infoAdd none a = a := by cases a <;> rfl

theorem Grad.add_comm (a b : Grad) : Grad.add a b = Grad.add b a := by
  funext v; exact infoAdd_comm _ _

theorem Grad.add_assoc (a b c : Grad) : Grad.add (Grad.add a b) c = Grad.add a (Grad.add b c) := by
  funext v; exact infoAdd_assoc _ _ _

@[simp] theorem Grad.zero_add (a : Grad) : Grad.add Grad.zero a = a := by
  funext v; simp [Grad.add, Grad.zero]

@[simp] theorem Grad.add_zero (a : Grad) : Grad.add a Grad.zero = a := by
  funext v; simp [Grad.add, Grad.zero]

/-- What is true of all the derivatives. -/
structure Info.OK (a : Info) : Prop where
  mag : |a.exact| ≤ a.mag
  scale : a.mag ≤ a.scale
  one : 1 ≤ a.scale
  uses : 1 ≤ a.uses

def Grad.OK (g : Grad) : Prop := ∀ v I, g v = some I → I.OK

theorem Info.OK.add {a b : Info} (ha : a.OK) (hb : b.OK) : (a.add b).OK := by
  refine ⟨?_, ?_, ?_, ?_⟩
  · exact (abs_add_le _ _).trans (add_le_add ha.mag hb.mag)
  · exact add_le_add ha.scale hb.scale
  · have := ha.one; have := hb.one; simp only [Info.add]; linarith
  · have := ha.uses; simp only [Info.add]; omega

theorem Grad.OK.zero : Grad.OK Grad.zero := by intro v I h; cases h

theorem Grad.OK.add {a b : Grad} (ha : a.OK) (hb : b.OK) : (Grad.add a b).OK := by
  intro v I h
  simp only [Grad.add] at h
  cases h1 : a v with
  | none => rw [h1, none_infoAdd] at h; exact hb v I h
  | some x =>
    cases h2 : b v with
    | none => rw [h1, h2] at h; cases h; exact ha v _ h1
    | some y =>
      rw [h1, h2] at h
      cases h
      exact (ha v x h1).add (hb v y h2)

theorem Grad.OK.single (v : VarId) : (Grad.single v).OK := by
  intro w I h
  simp only [Grad.single] at h
  split at h
  · cases h; exact ⟨by simp, by simp, by simp, by simp⟩
  · cases h

section floats
variable {F : Type} [PyFloat F] [Rounded F]

local notation "U" => (1 + Rounded.u F)
local notation "E" => (1 + Rounded.η F)

theorem Info.OK.smul {a : Info} (ha : a.OK) (c : F) : (Info.smul c a).OK := by
  have h0 : 0 ≤ a.mag := (abs_nonneg _).trans ha.mag
  refine ⟨?_, ?_, ?_, ha.uses⟩
  · simp only [Info.smul, abs_mul]
    exact mul_le_mul_of_nonneg_left ha.mag (abs_nonneg _)
  · simp only [Info.smul]
    exact mul_le_mul (le_max_right _ _) ha.scale h0 (zero_le_one.trans (le_max_left _ _))
  · simp only [Info.smul]
    have := mul_le_mul (le_max_left (1 : ℝ) |Rounded.val c|) ha.one zero_le_one
      (zero_le_one.trans (le_max_left _ _))
    linarith

theorem Grad.OK.smul {a : Grad} (ha : a.OK) (c : F) : (Grad.smul c a).OK := by
  intro v I h
  simp only [Grad.smul, Option.map_eq_some_iff] at h
  obtain ⟨J, h1, rfl⟩ := h
  exact (ha v J h1).smul c

theorem Grad.OK.comb {l : List (F × Grad)} (h : ∀ p ∈ l, p.2.OK) : (Grad.comb l).OK := by
  induction l with
  | nil => exact Grad.OK.zero
  | cons p l ih =>
    obtain ⟨c, g⟩ := p
    exact ((h (c, g) (by simp)).smul c).add (ih fun q hq => h q (by simp [hq]))

theorem Grad.comb_append (a b : List (F × Grad)) :
    Grad.comb (a ++ b) = Grad.add (Grad.comb a) (Grad.comb b) := by
  induction a with
  | nil => simp [Grad.comb]
  | cons p a ih => simp [Grad.comb, ih, Grad.add_assoc]

theorem U_one : (1 : ℝ) ≤ U := by have := Rounded.u_nonneg (F := F); linarith
theorem E_one : (1 : ℝ) ≤ E := by have := Rounded.η_nonneg (F := F); linarith

/-! ### Approximations -/

/-- The float `x` approximates `t`, with `n` relative roundings and `k` underflows; `m` and `s` are the
magnitudes of what was added and multiplied; if `x` is finite, then so is what it was calculated from
(`P`). -/
structure Near (x : F) (P : Prop) (t m s : ℝ) (n k : ℕ) : Prop where
  fin : Rounded.Fin x → P
  mag : |t| ≤ m
  scale : m ≤ s
  one : 1 ≤ s
  near : Rounded.Fin x → |Rounded.val x - t| ≤ U ^ n * (m + (E ^ k - 1) * s) - m

theorem Near.m_nonneg {x : F} {P : Prop} {t m s : ℝ} {n k : ℕ} (h : Near x P t m s n k) : 0 ≤ m :=
  (abs_nonneg _).trans h.mag

/-- The bound grows with the number of roundings. -/
theorem bound_mono {m s : ℝ} {n n' k k' : ℕ} (hm : 0 ≤ m) (hs : m ≤ s) (hn : n ≤ n') (hk : k ≤ k') :
    U ^ n * (m + (E ^ k - 1) * s) ≤ U ^ n' * (m + (E ^ k' - 1) * s) := by
  have h1 : U ^ n ≤ U ^ n' := pow_le_pow_right₀ U_one hn
  have h2 : E ^ k ≤ E ^ k' := pow_le_pow_right₀ E_one hk
  have h3 : (1 : ℝ) ≤ E ^ k := one_le_pow₀ E_one
  have h4 : 0 ≤ U ^ n' := pow_nonneg (zero_le_one.trans (U_one (F := F))) n'
  have hs0 : 0 ≤ s := hm.trans hs
  have h5 : 0 ≤ m + (E ^ k - 1) * s := by
    have := mul_nonneg (sub_nonneg.mpr h3) hs0
    linarith
  have h6 : m + (E ^ k - 1) * s ≤ m + (E ^ k' - 1) * s := by
    have := mul_le_mul_of_nonneg_right (sub_le_sub_right h2 1) hs0
    linarith
  exact mul_le_mul h1 h6 h5 h4

theorem Near.mono {x : F} {P : Prop} {t m s : ℝ} {n k n' k' : ℕ} (h : Near x P t m s n k) (hn : n ≤ n')
    (hk : k ≤ k') : Near x P t m s n' k' :=
  ⟨h.fin, h.mag, h.scale, h.one, fun hx => (h.near hx).trans
    (sub_le_sub_right (bound_mono h.m_nonneg h.scale hn hk) m)⟩

theorem Near.exact (x : F) : Near x (Rounded.Fin x) (Rounded.val x) |Rounded.val x| (max 1 |Rounded.val x|) 0 0 :=
  ⟨id, le_refl _, le_max_right _ _, le_max_left _ _, fun _ => by simp⟩

theorem Near.one' : Near (1 : F) True 1 1 1 0 0 :=
  ⟨fun _ => trivial, by simp, le_refl _, le_refl _, fun _ => by simp [Rounded.val_one]⟩

/-- Size of the approximation. -/
theorem Near.size {x : F} {P : Prop} {t m s : ℝ} {n k : ℕ} (h : Near x P t m s n k) (hx : Rounded.Fin x) :
    |Rounded.val x| ≤ U ^ n * (m + (E ^ k - 1) * s) := by
  have h1 := h.near hx
  have h2 : |Rounded.val x| ≤ |Rounded.val x - t| + |t| := by
    have := abs_add_le (Rounded.val x - t) t
    simpa using this
  linarith [h.mag]

theorem Near.mul {x y : F} {P1 P2 : Prop} {t1 m1 s1 t2 m2 s2 : ℝ} {n1 k1 n2 k2 : ℕ} (h1 : Near x P1 t1 m1 s1 n1 k1)
    (h2 : Near y P2 t2 m2 s2 n2 k2) :
    Near (x * y) (P1 ∧ P2) (t1 * t2) (m1 * m2) (s1 * s2) (n1 + n2 + 1) (k1 + k2 + 1) := by
  have hm1 := h1.m_nonneg
  have hm2 := h2.m_nonneg
  have hs1 : 0 ≤ s1 := hm1.trans h1.scale
  have hs2 : 0 ≤ s2 := hm2.trans h2.scale
  refine ⟨?_, ?_, ?_, ?_, ?_⟩
  · intro hf
    obtain ⟨hx, hy, -⟩ := Rounded.mul x y hf
    exact ⟨h1.fin hx, h2.fin hy⟩
  · rw [abs_mul]; exact mul_le_mul h1.mag h2.mag (abs_nonneg _) hm1
  · exact mul_le_mul h1.scale h2.scale hm2 hs1
  · have := mul_le_mul h1.one h2.one zero_le_one hs1
    linarith
  · intro hf
    obtain ⟨hx, hy, hr⟩ := Rounded.mul x y hf
    have e1 := h1.near hx
    have e2 := h2.near hy
    have z2 := h2.size hy
    have hu := Rounded.u_nonneg (F := F)
    have hη := Rounded.η_nonneg (F := F)
    set P1 : ℝ := U ^ n1 with hP1
    set P2 : ℝ := U ^ n2 with hP2
    set a : ℝ := E ^ k1 - 1 with ha
    set b : ℝ := E ^ k2 - 1 with hb
    have hP1' : (1 : ℝ) ≤ P1 := one_le_pow₀ U_one
    have hP2' : (1 : ℝ) ≤ P2 := one_le_pow₀ U_one
    have ha' : 0 ≤ a := sub_nonneg.mpr (one_le_pow₀ E_one)
    have hb' : 0 ≤ b := sub_nonneg.mpr (one_le_pow₀ E_one)
    set X := Rounded.val x
    set Y := Rounded.val y
    -- exact product of the approximations
    have hA : |X * Y - t1 * t2| ≤
        P1 * (m1 + a * s1) * (P2 * (m2 + b * s2)) - m1 * m2 := by
      have h3 : X * Y - t1 * t2 = (X - t1) * Y + t1 * (Y - t2) := by ring
      rw [h3]
      have h4 : |(X - t1) * Y| ≤ (P1 * (m1 + a * s1) - m1) * (P2 * (m2 + b * s2)) := by
        rw [abs_mul]
        exact mul_le_mul e1 z2 (abs_nonneg _) ((abs_nonneg _).trans e1)
      have h5 : |t1 * (Y - t2)| ≤ m1 * (P2 * (m2 + b * s2) - m2) := by
        rw [abs_mul]
        exact mul_le_mul h1.mag e2 (abs_nonneg _) hm1
      calc _ ≤ |(X - t1) * Y| + |t1 * (Y - t2)| := abs_add_le _ _
        _ ≤ _ := by linarith
    have hB : P1 * (m1 + a * s1) * (P2 * (m2 + b * s2)) ≤
        P1 * P2 * (m1 * m2 + (E ^ (k1 + k2) - 1) * (s1 * s2)) := by
      have h6 : (m1 + a * s1) * (m2 + b * s2) ≤ m1 * m2 + (E ^ (k1 + k2) - 1) * (s1 * s2) := by
        have h7 : E ^ (k1 + k2) - 1 = a + b + a * b := by
          rw [pow_add, ha, hb]; ring
        rw [h7]
        have h8 : a * s1 * m2 ≤ a * s1 * s2 :=
          mul_le_mul_of_nonneg_left h2.scale (mul_nonneg ha' hs1)
        have h9 : b * s2 * m1 ≤ b * s2 * s1 :=
          mul_le_mul_of_nonneg_left h1.scale (mul_nonneg hb' hs2)
        nlinarith [h8, h9]
      have h10 : 0 ≤ P1 * P2 := mul_nonneg (zero_le_one.trans hP1') (zero_le_one.trans hP2')
      calc _ = P1 * P2 * ((m1 + a * s1) * (m2 + b * s2)) := by ring
        _ ≤ _ := mul_le_mul_of_nonneg_left h6 h10
    have hC : |X * Y| ≤ P1 * P2 * (m1 * m2 + (E ^ (k1 + k2) - 1) * (s1 * s2)) := by
      have h11 : |X * Y| ≤ |X * Y - t1 * t2| + |t1 * t2| := by
        have := abs_add_le (X * Y - t1 * t2) (t1 * t2)
        simpa using this
      have h12 : |t1 * t2| ≤ m1 * m2 := by
        rw [abs_mul]; exact mul_le_mul h1.mag h2.mag (abs_nonneg _) hm1
      linarith
    set Q : ℝ := P1 * P2 * (m1 * m2 + (E ^ (k1 + k2) - 1) * (s1 * s2)) with hQ
    have hD : |Rounded.val (x * y) - t1 * t2| ≤ (1 + Rounded.u F) * Q + Rounded.η F - m1 * m2 := by
      have h13 := abs_add_le (Rounded.val (x * y) - X * Y) (X * Y - t1 * t2)
      rw [show Rounded.val (x * y) - X * Y + (X * Y - t1 * t2) = Rounded.val (x * y) - t1 * t2 by
        ring] at h13
      have h14 : Rounded.u F * |X * Y| ≤ Rounded.u F * Q := mul_le_mul_of_nonneg_left hC hu
      linarith
    refine hD.trans (sub_le_sub_right ?_ _)
    -- the absolute error is absorbed by one more factor `1 + η`
    have hpow : U ^ (n1 + n2 + 1) = U * (P1 * P2) := by
      rw [hP1, hP2, pow_succ, pow_add]; ring
    have hE : E ^ (k1 + k2 + 1) - 1 = (E ^ (k1 + k2) - 1) + Rounded.η F * E ^ (k1 + k2) := by
      rw [pow_succ]; ring
    rw [hpow, hE]
    have hs12 : 1 ≤ s1 * s2 := by
      have := mul_le_mul h1.one h2.one zero_le_one hs1
      linarith
    have hEE : (1 : ℝ) ≤ E ^ (k1 + k2) := one_le_pow₀ E_one
    have hPP : (1 : ℝ) ≤ U * (P1 * P2) := by
      have := one_le_pow₀ (n := n1 + n2 + 1) (U_one (F := F))
      rwa [hpow] at this
    have hlast : Rounded.η F ≤ U * (P1 * P2) * (Rounded.η F * E ^ (k1 + k2) * (s1 * s2)) := by
      have h15 : Rounded.η F ≤ Rounded.η F * E ^ (k1 + k2) := by
        nlinarith
      have h16 : Rounded.η F * E ^ (k1 + k2) ≤ Rounded.η F * E ^ (k1 + k2) * (s1 * s2) := by
        have : 0 ≤ Rounded.η F * E ^ (k1 + k2) := hη.trans h15
        nlinarith
      have h17 : 0 ≤ Rounded.η F * E ^ (k1 + k2) * (s1 * s2) := hη.trans (h15.trans h16)
      nlinarith
    have heq : U * (P1 * P2) * (m1 * m2 +
        (E ^ (k1 + k2) - 1 + Rounded.η F * E ^ (k1 + k2)) * (s1 * s2)) =
        U * Q + U * (P1 * P2) * (Rounded.η F * E ^ (k1 + k2) * (s1 * s2)) := by
      rw [hQ]; ring
    rw [heq]
    linarith

theorem Near.add {x y : F} {P1 P2 : Prop} {t1 m1 s1 t2 m2 s2 : ℝ} {n1 n2 n k1 k2 k : ℕ}
    (h1 : Near x P1 t1 m1 s1 n1 k1) (h2 : Near y P2 t2 m2 s2 n2 k2) (hn1 : n1 ≤ n) (hn2 : n2 ≤ n)
    (hk1 : k1 ≤ k) (hk2 : k2 ≤ k) :
    Near (x + y) (P1 ∧ P2) (t1 + t2) (m1 + m2) (s1 + s2) (n + 1) k := by
  have h1 := h1.mono hn1 hk1
  have h2 := h2.mono hn2 hk2
  refine ⟨?_, ?_, ?_, ?_, ?_⟩
  · intro hf
    obtain ⟨hx, hy, -⟩ := Rounded.add x y hf
    exact ⟨h1.fin hx, h2.fin hy⟩
  · exact (abs_add_le _ _).trans (add_le_add h1.mag h2.mag)
  · exact add_le_add h1.scale h2.scale
  · have := h1.one; have := h2.one; linarith
  · intro hf
    obtain ⟨hx, hy, hr⟩ := Rounded.add x y hf
    have e1 := h1.near hx
    have e2 := h2.near hy
    have z1 := h1.size hx
    have z2 := h2.size hy
    have hu := Rounded.u_nonneg (F := F)
    set X := Rounded.val x
    set Y := Rounded.val y
    have h3 : |X + Y| ≤ U ^ n * (m1 + m2 + (E ^ k - 1) * (s1 + s2)) := by
      have := abs_add_le X Y
      linarith
    have h4 : |X + Y - (t1 + t2)| ≤ U ^ n * (m1 + m2 + (E ^ k - 1) * (s1 + s2)) - (m1 + m2) := by
      have h5 := abs_add_le (X - t1) (Y - t2)
      rw [show X - t1 + (Y - t2) = X + Y - (t1 + t2) by ring] at h5
      linarith
    have h6 := abs_add_le (Rounded.val (x + y) - (X + Y)) (X + Y - (t1 + t2))
    rw [show Rounded.val (x + y) - (X + Y) + (X + Y - (t1 + t2)) =
      Rounded.val (x + y) - (t1 + t2) by ring] at h6
    have h7 : Rounded.u F * |X + Y| ≤
        Rounded.u F * (U ^ n * (m1 + m2 + (E ^ k - 1) * (s1 + s2))) :=
      mul_le_mul_of_nonneg_left h3 hu
    have h8 : U ^ (n + 1) * (m1 + m2 + (E ^ k - 1) * (s1 + s2)) =
        U ^ n * (m1 + m2 + (E ^ k - 1) * (s1 + s2)) +
          Rounded.u F * (U ^ n * (m1 + m2 + (E ^ k - 1) * (s1 + s2))) := by
      rw [pow_succ]; ring
    rw [h8]
    linarith

theorem Near.zero_add {y : F} {P : Prop} {t m s : ℝ} {n k : ℕ} (h : Near y P t m s n k) :
    Near (0 + y) P t m s n k := by
  refine ⟨fun hf => h.fin (Rounded.add 0 y hf).2.1, h.mag, h.scale, h.one, fun hf => ?_⟩
  rw [Rounded.zero_add y hf]
  exact h.near (Rounded.add 0 y hf).2.1

/-! ### Dictionaries -/

theorem lookup_addTo_any (d : Derivs F) (u : VarId) (x : F) (v : VarId) :
    (addTo d u x).lookup v =
      if v = u then some ((d.lookup u).getD 0 + x) else d.lookup v := by
  induction d with
  | nil =>
    simp only [addTo, lookup_cons, List.lookup_nil]
    by_cases h : v = u <;> simp [h]
  | cons p d ih =>
    obtain ⟨w, y⟩ := p
    by_cases h : w = u
    · subst h
      simp only [addTo, if_true, lookup_cons]
      by_cases h2 : v = w <;> simp [h2]
    · have h' : ¬ u = w := fun e => h e.symm
      simp only [addTo, h, if_false, lookup_cons, ih]
      by_cases h2 : v = w
      · subst h2; simp [h]
      · simp [h2, h']

theorem lookup_addScaled (c : F) (d acc : Derivs F) (hd : KeysNodup d) (v : VarId) :
    (addScaled c d acc).lookup v =
      match d.lookup v with
      | none => acc.lookup v
      | some x => some ((acc.lookup v).getD 0 + c * x) := by
  induction d generalizing acc with
  | nil => rfl
  | cons p d ih =>
    obtain ⟨u, x⟩ := p
    have hd' : KeysNodup d := (List.nodup_cons.mp hd).2
    have hu : u ∉ d.map Prod.fst := (List.nodup_cons.mp hd).1
    simp only [addScaled]
    rw [ih _ hd', lookup_cons, lookup_addTo_any]
    by_cases h : v = u
    · subst h
      rw [lookup_eq_none_of_not_mem hu]
      simp
    · simp [h]

/-! ### Heaps -/

/-- Derivatives denoted by a list of terms, when `g j` are the derivatives of object `j`. -/
noncomputable def gradItems (g : NodeId → Grad) : List (Item F) → Grad
  | [] => Grad.zero
  | .junk :: ts => gradItems g ts
  | .pair c j :: ts => Grad.add (Grad.smul c (g j)) (gradItems g ts)

/-- The value found in a dictionary approximates the derivative. -/
def DictOK : Option F → Option Info → Prop
  | none, none => True
  | some x, some I => Near x I.fin I.exact I.mag I.scale (I.depth + I.uses - 1) I.depth
  | _, _ => False

/-- One heap cell represents the derivatives `g i`. -/
def RCell (g : NodeId → Grad) (i : NodeId) : LC F → Prop
  | .dict d => KeysNodup d ∧ ∀ v, DictOK (d.lookup v) (g i v)
  | .terms ts => ItemsBelow i ts ∧ gradItems g ts = g i

/-- `g` gives, for each object of the heap, the exact derivatives of what it represents. -/
structure RDenotes (h : Heap F) (g : NodeId → Grad) : Prop where
  cell : ∀ i lc, h[i]? = some lc → RCell g i lc
  ok : ∀ i, (g i).OK

theorem RDenotes.wf {h : Heap F} {g : NodeId → Grad} (hd : RDenotes h g) : HeapWF h :=
  fun i ts hi => (hd.cell i _ hi).1

/-- What the terms that remain to be expanded add to the derivative with respect to `v`: `t`, with
magnitudes `m` and `s`, in `R` paths of total length at most `D`; `P`: the partial derivatives are finite. -/
inductive Pend (g : NodeId → Grad) (v : VarId) (D : ℕ) : List (Item F) → Prop → ℝ → ℝ → ℝ → ℕ → Prop
  | nil : Pend g v D [] True 0 0 0 0
  | skip {c : F} {j : NodeId} {ts : List (Item F)} {P : Prop} {t m s : ℝ} {R : ℕ} (hj : g j v = none)
      (h : Pend g v D ts P t m s R) : Pend g v D (.pair c j :: ts) P t m s R
  | cons {c : F} {j : NodeId} {ts : List (Item F)} {P : Prop} {t m s : ℝ} {R : ℕ} {I : Info}
      {Pc : Prop} {tc mc sc : ℝ} {p : ℕ} (hj : g j v = some I) (hc : Near c Pc tc mc sc p p)
      (hp : p + 1 + I.depth ≤ D) (h : Pend g v D ts P t m s R) :
      Pend g v D (.pair c j :: ts) ((Pc ∧ I.fin) ∧ P) (tc * I.exact + t) (mc * I.mag + m) (sc * I.scale + s)
        (I.uses + R)

theorem Pend.append {g : NodeId → Grad} {v : VarId} {D : ℕ} {a b : List (Item F)}
    {P P' : Prop} {t m s t' m' s' : ℝ} {R R' : ℕ} (ha : Pend g v D a P t m s R) (hb : Pend g v D b P' t' m' s' R') :
    Pend g v D (a ++ b) (P ∧ P') (t + t') (m + m') (s + s') (R + R') := by
  induction ha with
  | nil => simpa using hb
  | skip hj _ ih => exact .skip hj ih
  | cons hj hc hp _ ih =>
    have := Pend.cons hj hc hp ih
    rw [List.cons_append]
    convert this using 1 <;> first | ring | exact and_assoc

/-- The terms of an object, multiplied by an approximate coefficient. -/
theorem pend_scale {g : NodeId → Grad} {v : VarId} {D : ℕ} {c : F} {Pc : Prop} {tc mc sc : ℝ} {p : ℕ}
    (hc : Near c Pc tc mc sc p p) (i : NodeId) (tj : List (Item F)) (hb : ItemsBelow i tj) :
    (gradItems g tj v = none → Pend g v D (tj.map (scaleItem c)) True 0 0 0 0) ∧
    (∀ I, gradItems g tj v = some I → p + 1 + I.depth ≤ D →
      Pend g v D (tj.map (scaleItem c)) (Pc ∧ I.fin) (tc * I.exact) (mc * I.mag) (sc * I.scale) I.uses) := by
  induction tj with
  | nil => exact ⟨fun _ => .nil, fun I hI => by cases hI⟩
  | cons t tj ih =>
    obtain ⟨f, j, rfl, hj⟩ := hb t (by simp)
    obtain ⟨ih1, ih2⟩ := ih (fun t ht => hb t (by simp [ht]))
    have hg : gradItems g (Item.pair f j :: tj) v =
        infoAdd ((g j v).map (Info.smul f)) (gradItems g tj v) := rfl
    simp only [List.map_cons, scaleItem]
    have hcf : Near (c * f) (Pc ∧ Rounded.Fin f) (tc * Rounded.val f) (mc * |Rounded.val f|) (sc * max 1 |Rounded.val f|)
        (p + 1) (p + 1) := by
      have := hc.mul (Near.exact f)
      simpa using this
    rw [hg]
    cases hjv : g j v with
    | none =>
      simp only [Option.map_none, none_infoAdd]
      exact ⟨fun h => .skip hjv (ih1 h), fun I hI hp => .skip hjv (ih2 I hI hp)⟩
    | some J =>
      simp only [Option.map_some]
      constructor
      · intro h; cases hh : gradItems g tj v <;> rw [hh] at h <;> cases h
      · intro I hI hp
        cases hr : gradItems g tj v with
        | none =>
          rw [hr] at hI
          cases hI
          have hp' : p + 1 + 1 + J.depth ≤ D := by simp only [Info.smul] at hp; omega
          have := Pend.cons hjv hcf hp' (ih1 hr)
          convert this using 1 <;> simp only [Info.smul] <;> first | ring | tauto
        | some K =>
          rw [hr] at hI
          cases hI
          simp only [Info.add, Info.smul] at hp
          have hp1 : p + 1 + 1 + J.depth ≤ D := by
            have := le_max_left (J.depth + 1) K.depth; omega
          have hp2 : p + 1 + K.depth ≤ D := by
            have := le_max_right (J.depth + 1) K.depth; omega
          have := Pend.cons hjv hcf hp1 (ih2 K hr hp2)
          convert this using 1 <;> simp only [Info.add, Info.smul] <;> first | ring | tauto

/-- The terms of an object itself. -/
theorem pend_items {g : NodeId → Grad} {v : VarId} (i : NodeId) (ts : List (Item F))
    (hb : ItemsBelow i ts) {D : ℕ} :
    (gradItems g ts v = none → Pend g v D ts True 0 0 0 0) ∧
    (∀ I, gradItems g ts v = some I → I.depth ≤ D →
      Pend g v D ts I.fin I.exact I.mag I.scale I.uses) := by
  induction ts with
  | nil => exact ⟨fun _ => .nil, fun I hI => by cases hI⟩
  | cons t ts ih =>
    obtain ⟨f, j, rfl, hj⟩ := hb t (by simp)
    obtain ⟨ih1, ih2⟩ := ih (fun t ht => hb t (by simp [ht]))
    have hg : gradItems g (Item.pair f j :: ts) v =
        infoAdd ((g j v).map (Info.smul f)) (gradItems g ts v) := rfl
    rw [hg]
    cases hjv : g j v with
    | none =>
      simp only [Option.map_none, none_infoAdd]
      exact ⟨fun h => .skip hjv (ih1 h), fun I hI hp => .skip hjv (ih2 I hI hp)⟩
    | some J =>
      simp only [Option.map_some]
      constructor
      · intro h; cases hh : gradItems g ts v <;> rw [hh] at h <;> cases h
      · intro I hI hp
        cases hr : gradItems g ts v with
        | none =>
          rw [hr] at hI
          cases hI
          have hp' : 0 + 1 + J.depth ≤ D := by simp only [Info.smul] at hp; omega
          have := Pend.cons hjv (Near.exact f) hp' (ih1 hr)
          convert this using 1 <;> simp only [Info.smul] <;> first | ring | tauto
        | some K =>
          rw [hr] at hI
          cases hI
          simp only [Info.add, Info.smul] at hp
          have hp1 : 0 + 1 + J.depth ≤ D := by
            have := le_max_left (J.depth + 1) K.depth; omega
          have hp2 : K.depth ≤ D := by
            have := le_max_right (J.depth + 1) K.depth; omega
          exact Pend.cons hjv (Near.exact f) hp1 (ih2 K hr hp2)

/-- The local variable `derivatives` and the remaining terms, for the variable `v`. -/
def LoopOK (g : NodeId → Grad) (v : VarId) (target : Option Info) (y : Option F)
    (ts : List (Item F)) : Prop :=
  match target with
  | none => y = none ∧ ∃ P t m s, Pend g v 0 ts P t m s 0
  | some I =>
    match y with
    | none => Pend g v I.depth ts I.fin I.exact I.mag I.scale I.uses
    | some y => ∃ Py ty my sy n P t m s R, Near y Py ty my sy n I.depth ∧ Pend g v I.depth ts P t m s R ∧
        (Py ∧ P → I.fin) ∧ ty + t = I.exact ∧ my + m = I.mag ∧ sy + s = I.scale ∧
        n + R ≤ I.depth + I.uses - 1 ∧ R + 1 ≤ I.uses

theorem Pend.depth_mono {g : NodeId → Grad} {v : VarId} {D D' : ℕ} {ts : List (Item F)}
    {P : Prop} {t m s : ℝ} {R : ℕ} (h : Pend g v D ts P t m s R) (hD : D ≤ D') : Pend g v D' ts P t m s R := by
  induction h with
  | nil => exact .nil
  | skip hj _ ih => exact .skip hj ih
  | cons hj hc hp _ ih => exact .cons hj hc (hp.trans hD) ih

/-- Inversion. -/
theorem Pend.head_none {g : NodeId → Grad} {v : VarId} {D : ℕ} {c : F} {j : NodeId}
    {ts : List (Item F)} {P : Prop} {t m s : ℝ} {R : ℕ} (h : Pend g v D (.pair c j :: ts) P t m s R)
    (hj : g j v = none) : Pend g v D ts P t m s R := by
  cases h with
  | skip _ h => exact h
  | cons hj' _ _ _ => rw [hj] at hj'; cases hj'

theorem Pend.head_some {g : NodeId → Grad} {v : VarId} {D : ℕ} {c : F} {j : NodeId}
    {ts : List (Item F)} {P : Prop} {t m s : ℝ} {R : ℕ} {I : Info} (h : Pend g v D (.pair c j :: ts) P t m s R)
    (hj : g j v = some I) :
    ∃ Pc tc mc sc p P' t' m' s' R', Near c Pc tc mc sc p p ∧ p + 1 + I.depth ≤ D ∧
      Pend g v D ts P' t' m' s' R' ∧ (P ↔ (Pc ∧ I.fin) ∧ P') ∧ t = tc * I.exact + t' ∧ m = mc * I.mag + m' ∧
      s = sc * I.scale + s' ∧ R = I.uses + R' := by
  cases h with
  | skip hj' h => rw [hj] at hj'; cases hj'
  | cons hj' hc hp h =>
    rw [hj] at hj'
    cases hj'
    exact ⟨_, _, _, _, _, _, _, _, _, _, hc, hp, h, Iff.rfl, rfl, rfl, rfl, rfl⟩

theorem Pend.of_nil {g : NodeId → Grad} {v : VarId} {D : ℕ} {P : Prop} {t m s : ℝ} {R : ℕ}
    (h : Pend g v D ([] : List (Item F)) P t m s R) : P ∧ t = 0 ∧ m = 0 ∧ s = 0 ∧ R = 0 := by
  cases h; exact ⟨trivial, rfl, rfl, rfl, rfl⟩

/-- A term whose linear combination is expanded. -/
theorem LoopOK.dict {g : NodeId → Grad} (hok : ∀ j, (g j).OK) {v : VarId} {target : Option Info}
    {y : Option F} {c : F} {j : NodeId} {ts : List (Item F)} {x : Option F}
    (h : LoopOK g v target y (.pair c j :: ts)) (hx : DictOK x (g j v)) :
    LoopOK g v target (match x with | none => y | some x => some (y.getD 0 + c * x)) ts := by
  have uses : ∀ I, g j v = some I → 1 ≤ I.uses := fun I hI => (hok j v I hI).uses
  cases target with
  | none =>
    obtain ⟨h1, P, t, m, s, h2⟩ := h
    cases h2' : g j v with
    | none =>
      rw [h2'] at hx
      cases x with
      | some x => exact hx.elim
      | none => exact ⟨h1, P, t, m, s, h2.head_none h2'⟩
    | some I =>
      exfalso
      have := uses I h2'
      obtain ⟨_, _, _, _, _, _, _, _, _, R', -, -, -, -, -, -, -, e⟩ := h2.head_some h2'
      omega
  | some T =>
    cases hgj : g j v with
    | none =>
      rw [hgj] at hx
      cases x with
      | some x => exact hx.elim
      | none =>
        cases y with
        | none => exact Pend.head_none h hgj
        | some y =>
          obtain ⟨Py, ty, my, sy, n, P, t, m, s, R, a1, a2, a3⟩ := h
          exact ⟨Py, ty, my, sy, n, P, t, m, s, R, a1, a2.head_none hgj, a3⟩
    | some I =>
      rw [hgj] at hx
      cases x with
      | none => exact hx.elim
      | some x =>
        have hu := uses I hgj
        simp only [DictOK] at hx
        cases y with
        | none =>
          obtain ⟨Pc, tc, mc, sc, p, P', t', m', s', R', b1, b2, b3, b0, b4, b5, b6, b7⟩ := Pend.head_some h hgj
          have hprod := (b1.mul hx).zero_add
          refine ⟨_, tc * I.exact, mc * I.mag, sc * I.scale, p + (I.depth + I.uses - 1) + 1, P', t', m', s',
            R', hprod.mono (le_refl _) (by omega), b3, b0.2, b4.symm, b5.symm, b6.symm, by omega, by omega⟩
        | some y =>
          obtain ⟨Py, ty, my, sy, n, P, t, m, s, R, a1, a2, a0, a3, a4, a5, a6, a7⟩ := h
          obtain ⟨Pc, tc, mc, sc, p, P', t', m', s', R', b1, b2, b3, b0, b4, b5, b6, b7⟩ := a2.head_some hgj
          have hprod := b1.mul hx
          have hsum := a1.add hprod (n := max n (p + (I.depth + I.uses - 1) + 1)) (k := T.depth)
            (le_max_left _ _) (le_max_right _ _) (le_refl _) (by omega)
          refine ⟨_, _, _, _, _, P', t', m', s', R', hsum, b3, fun hP => a0 (by tauto), ?_, ?_, ?_, ?_, by omega⟩
          · rw [← a3, b4]; ring
          · rw [← a4, b5]; ring
          · rw [← a5, b6]; ring
          · rcases max_choice n (p + (I.depth + I.uses - 1) + 1) with e | e <;> rw [e] <;> omega

/-- A term whose linear combination is not expanded. -/
theorem LoopOK.terms {g : NodeId → Grad} (hok : ∀ j, (g j).OK) {v : VarId} {target : Option Info}
    {y : Option F} {c : F} {j : NodeId} {ts tj : List (Item F)}
    (h : LoopOK g v target y (.pair c j :: ts)) (hb : ItemsBelow j tj) (hj : gradItems g tj = g j) :
    LoopOK g v target y (tj.map (scaleItem c) ++ ts) := by
  have uses : ∀ I, g j v = some I → 1 ≤ I.uses := fun I hI => (hok j v I hI).uses
  have none_case : ∀ D, g j v = none → Pend g v D (tj.map (scaleItem c)) True 0 0 0 0 := by
    intro D h0
    have hc : Near c (Rounded.Fin c) (Rounded.val c) |Rounded.val c| (max 1 |Rounded.val c|) 0 0 := Near.exact c
    exact (pend_scale hc j tj hb).1 (by rw [hj]; exact h0)
  have push : ∀ {D : ℕ} {P : Prop} {t m s : ℝ} {R : ℕ}, Pend g v D (.pair c j :: ts) P t m s R →
      Pend g v D (tj.map (scaleItem c) ++ ts) P t m s R := by
    intro D P t m s R hp
    cases hp with
    | skip hj' h => simpa using (none_case D hj').append h
    | cons hj' hc hp h =>
      exact ((pend_scale hc j tj hb).2 _ (by rw [hj]; exact hj') hp).append h
  cases target with
  | none => obtain ⟨h1, P, t, m, s, h2⟩ := h; exact ⟨h1, P, t, m, s, push h2⟩
  | some T =>
    cases y with
    | none => exact push h
    | some y =>
      obtain ⟨Py, ty, my, sy, n, P, t, m, s, R, a1, a2, a3⟩ := h
      exact ⟨Py, ty, my, sy, n, P, t, m, s, R, a1, push a2, a3⟩

/-- At the end of the loop. -/
theorem LoopOK.done {g : NodeId → Grad} {v : VarId} {target : Option Info} {y : Option F}
    (hT : ∀ I, target = some I → I.OK)
    (h : LoopOK g v target y ([] : List (Item F))) : DictOK y target := by
  cases target with
  | none => obtain ⟨rfl, -⟩ := h; trivial
  | some T =>
    cases y with
    | none =>
      exfalso
      have := (hT T rfl).uses
      have h1 := (Pend.of_nil h).2.2.2.2
      omega
    | some y =>
      obtain ⟨Py, ty, my, sy, n, P, t, m, s, R, a1, a2, a0, a3, a4, a5, a6, a7⟩ := h
      obtain ⟨hP, rfl, rfl, rfl, rfl⟩ := a2.of_nil
      simp only [DictOK]
      rw [← a3, ← a4, ← a5]
      simp only [add_zero]
      have := a1.mono (n' := T.depth + T.uses - 1) (by omega) (le_refl _)
      exact ⟨fun hf => a0 ⟨this.fin hf, hP⟩, this.mag, this.scale, this.one, this.near⟩

theorem expandLoop_rounded (fuel : Nat) (h : Heap F) (g : NodeId → Grad) (i : NodeId)
    (d : Derivs F) (ts : List (Item F)) (hi : h[i]? = some (.terms ts)) (hok : ∀ j, (g j).OK)
    (hg : ∀ k lc, k ≠ i → h[k]? = some lc → RCell g k lc) (hb : ItemsBelow i ts)
    (hnd : KeysNodup d) (hsum : ∀ v, LoopOK g v (g i v) (d.lookup v) ts)
    (d' : Derivs F) (hres : expandLoop fuel h i d = (h.set i (.dict d'), .ok ())) :
    KeysNodup d' ∧ ∀ v, DictOK (d'.lookup v) (g i v) := by
  induction fuel generalizing h d ts with
  | zero => simp [expandLoop] at hres
  | succ fuel ih =>
    have hlen : i < h.length := by rw [List.getElem?_eq_some_iff] at hi; exact hi.1
    cases ts with
    | nil =>
      have : d = d' := by
        simp only [expandLoop, expandStep, hi, Prod.mk.injEq, and_true] at hres
        have := congrArg (fun l => l[i]?) hres
        simpa [List.getElem?_set_self hlen] using this
      subst this
      exact ⟨hnd, fun v => (hsum v).done (fun I hI => hok i v I hI)⟩
    | cons t ts =>
      obtain ⟨c, j, rfl, hj⟩ := hb t (by simp)
      have hb' : ItemsBelow i ts := fun t ht => hb t (by simp [ht])
      have hjlen : j < h.length := by omega
      have hne : i ≠ j := by omega
      have hget : (h.set i (LC.terms ts))[j]? = some h[j] := by
        rw [List.getElem?_set_ne hne, List.getElem?_eq_getElem hjlen]
      have hgetj : h[j]? = some h[j] := List.getElem?_eq_getElem hjlen
      have hcell := hg j _ (Ne.symm hne) hgetj
      have hgs : ∀ ts', ∀ k lc, k ≠ i → (h.set i (LC.terms ts'))[k]? = some lc →
          RCell g k lc := by
        intro ts' k lc hk hk'
        rw [List.getElem?_set_ne (Ne.symm hk)] at hk'
        exact hg k lc hk hk'
      cases hj' : h[j] with
      | dict dj =>
        rw [hj'] at hcell
        simp only [expandLoop, expandStep, hi, hget, hj'] at hres
        refine ih (h.set i (LC.terms ts)) _ ts (List.getElem?_set_self hlen) (hgs ts) hb'
          (keysNodup_addScaled c dj hnd) ?_ (by rw [hres, List.set_set])
        intro v
        rw [lookup_addScaled c dj d hcell.1 v]
        exact (hsum v).dict hok (hcell.2 v)
      | terms tj =>
        rw [hj'] at hcell
        simp only [expandLoop, expandStep, hi, hget, hj',
          pushScaled_reverse c j tj ts hcell.1, List.set_set] at hres
        refine ih (h.set i (LC.terms (tj.map (scaleItem c) ++ ts))) d _
          (List.getElem?_set_self hlen) (hgs _)
          (itemsBelow_append (itemsBelow_scale hj.le hcell.1) hb') hnd ?_
          (by rw [hres, List.set_set])
        intro v
        exact (hsum v).terms hok hcell.1 hcell.2

theorem RDenotes.setDict {h : Heap F} {g : NodeId → Grad} (hd : RDenotes h g) {i : NodeId}
    {d : Derivs F} (hn : KeysNodup d) (hl : ∀ v, DictOK (d.lookup v) (g i v)) :
    RDenotes (h.set i (.dict d)) g := by
  refine ⟨?_, hd.ok⟩
  intro k lc hk
  by_cases hki : i = k
  · subst hki
    by_cases hlen : i < h.length
    · rw [List.getElem?_set_self hlen] at hk
      cases hk; exact ⟨hn, hl⟩
    · rw [List.getElem?_eq_none (by simpa using hlen)] at hk; cases hk
  · rw [List.getElem?_set_ne hki] at hk
    exact hd.cell k lc hk

/-- Reading derivatives gives approximations of the exact derivatives, and keeps what all the objects
represent. -/
theorem readDerivs_rounded {h : Heap F} {g : NodeId → Grad} (hd : RDenotes h g) (i : NodeId)
    (hi : i < h.length) :
    ∃ d, readDerivs h i = (h.set i (.dict d), .ok d) ∧ KeysNodup d ∧
      (∀ v, DictOK (d.lookup v) (g i v)) ∧ RDenotes (h.set i (.dict d)) g := by
  obtain ⟨d, hr⟩ := readDerivs_terminates h hd.wf i hi
  have hg : h[i]? = some h[i] := List.getElem?_eq_getElem hi
  have key : KeysNodup d ∧ ∀ v, DictOK (d.lookup v) (g i v) := by
    cases hc : h[i] with
    | dict d0 =>
      rw [hc] at hg
      simp only [readDerivs, hg, Prod.mk.injEq, Except.ok.injEq] at hr
      have := hd.cell i _ hg
      rw [← hr.2]; exact this
    | terms ts =>
      rw [hc] at hg
      obtain ⟨d', hd'⟩ := expand_terminates h hd.wf i ts hg
      have hcell := hd.cell i _ hg
      have := expandLoop_rounded (fuelFor h i) h g i [] ts hg hd.ok
        (fun k lc _ hk => hd.cell k lc hk) hcell.1 (by simp [KeysNodup]) (by
          intro v
          have hp := fun D => pend_items (g := g) (v := v) i ts hcell.1 (D := D)
          simp only [List.lookup_nil]
          cases hgi : g i v with
          | none => exact ⟨rfl, _, _, _, _, (hp 0).1 (by rw [hcell.2]; exact hgi)⟩
          | some I => exact (hp I.depth).2 I (by rw [hcell.2]; exact hgi) (le_refl _)) d' hd'
      simp only [readDerivs, hg, hd', List.getElem?_set_self hi, Prod.mk.injEq,
        Except.ok.injEq] at hr
      rw [← hr.2]; exact this
  exact ⟨d, hr, key.1, key.2, hd.setDict key.1 key.2⟩

/-- Idem for any index. -/
theorem RDenotes.read {h : Heap F} {g : NodeId → Grad} (hd : RDenotes h g) (i : NodeId) :
    RDenotes (readDerivs h i).1 g ∧ (readDerivs h i).1.length = h.length := by
  by_cases hi : i < h.length
  · obtain ⟨d, h1, -, -, h4⟩ := readDerivs_rounded hd i hi
    rw [h1]
    exact ⟨h4, by simp⟩
  · have : h[i]? = none := List.getElem?_eq_none (by omega)
    simp only [readDerivs, this]
    exact ⟨hd, trivial⟩

end floats

end Unc
