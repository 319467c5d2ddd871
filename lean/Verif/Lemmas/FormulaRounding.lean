import Verif.Lemmas.Formula
import Verif.Lemmas.RoundingStd
import Verif.Py.RoundedOps

/-
Rounding errors of the nominal values and of the partial derivatives of the operators.
-/

namespace Unc

set_option linter.unusedSectionVars false
set_option autoImplicit false

/-- The chain rule with calculated partial derivatives (`o`) is close to the derivative `d`, whose sensitivity is `s`. -/
def InfoNear (o : Option Info) (s : Sens) (d : ℝ) (cnt dep : ℕ) : Prop :=
  match o with
  | none => cnt = 0 ∧ s = Sens.zero ∧ d = 0
  | some I => 1 ≤ I.uses ∧ I.uses = cnt ∧ I.depth ≤ dep ∧ s.Bounds d ∧
      (I.fin → |I.exact - d| ≤ s.magErr ∧ I.mag ≤ s.mag + s.magErr ∧ I.scale ≤ s.scale + s.scaleErr)

theorem InfoNear.depth_mono {o : Option Info} {s : Sens} {d : ℝ} {cnt dep dep' : ℕ} (h : InfoNear o s d cnt dep)
    (hd : dep ≤ dep') : InfoNear o s d cnt dep' := by
  cases o with
  | none => exact h
  | some I => exact ⟨h.1, h.2.1, h.2.2.1.trans hd, h.2.2.2⟩

theorem InfoNear.add {o o' : Option Info} {s s' : Sens} {d d' : ℝ} {c c' dep : ℕ} (h : InfoNear o s d c dep)
    (h' : InfoNear o' s' d' c' dep) : InfoNear (infoAdd o o') (s.add s') (d + d') (c + c') dep := by
  cases o with
  | none =>
    obtain ⟨rfl, rfl, rfl⟩ := h
    rw [none_infoAdd, Sens.zero_add, zero_add, Nat.zero_add]
    exact h'
  | some I =>
    cases o' with
    | none =>
      obtain ⟨rfl, rfl, rfl⟩ := h'
      rw [infoAdd_none, Sens.add_zero, add_zero, Nat.add_zero]
      exact h
    | some J =>
      obtain ⟨h1, h2, h3, h4, h5⟩ := h
      obtain ⟨k1, k2, k3, k4, k5⟩ := h'
      refine ⟨?_, ?_, max_le h3 k3, h4.add k4, fun hf => ?_⟩
      · simp only [Info.add]; omega
      · simp only [Info.add]; omega
      · obtain ⟨a1, a2, a3⟩ := h5 hf.1
        obtain ⟨b1, b2, b3⟩ := k5 hf.2
        simp only [Info.add, Sens.add]
        refine ⟨?_, by linarith, by linarith⟩
        have e : I.exact + J.exact - (d + d') = (I.exact - d) + (J.exact - d') := by ring
        rw [e]
        exact (abs_add_le _ _).trans (add_le_add a1 b1)

section floats
variable {F : Type} [PyFloat F] [Rounded F]

theorem InfoNear.smul {o : Option Info} {s : Sens} {d : ℝ} {cnt dep : ℕ} (h : InfoNear o s d cnt dep) {c : F} {k γ : ℝ}
    (hγ : o ≠ none → 0 ≤ γ) (hc : o ≠ none → Rounded.Fin c → |Rounded.val c - k| ≤ γ) :
    InfoNear (o.map (Info.smul c)) (s.smul k γ) (k * d) cnt (dep + 1) := by
  cases o with
  | none =>
    obtain ⟨rfl, rfl, rfl⟩ := h
    exact ⟨rfl, Sens.smul_zero _ _, mul_zero _⟩
  | some I =>
    have hγ := hγ (by simp)
    obtain ⟨h1, h2, h3, h4, h5⟩ := h
    refine ⟨h1, h2, Nat.succ_le_succ h3, h4.smul k hγ, fun hf => ?_⟩
    have hc := hc (by simp) hf.1
    obtain ⟨a1, a2, a3⟩ := h5 hf.2
    have h0 := h4.mag_nonneg
    have hs := h4.scale
    have he := h4.magErr
    have hse := h4.scaleErr
    have hk : |Rounded.val c| ≤ |k| + γ := by
      have := abs_add_le (Rounded.val c - k) k
      rw [sub_add_cancel] at this
      linarith
    have hm : max 1 |Rounded.val c| ≤ max 1 |k| + γ :=
      max_le ((le_max_left 1 |k|).trans (le_add_of_nonneg_right hγ)) (hk.trans (add_le_add_left (le_max_right _ _) _))
    have hk0 : 0 ≤ |k| := abs_nonneg k
    have hm0 : (0 : ℝ) ≤ max 1 |k| := zero_le_one.trans (le_max_left _ _)
    simp only [Info.smul, Sens.smul]
    refine ⟨?_, ?_, ?_⟩
    · have e : Rounded.val c * I.exact - k * d = Rounded.val c * (I.exact - d) + (Rounded.val c - k) * d := by ring
      rw [e]
      refine (abs_add_le _ _).trans ?_
      rw [abs_mul, abs_mul]
      have b1 := mul_le_mul hk a1 (abs_nonneg _) (by positivity)
      have b2 := mul_le_mul hc h4.mag (abs_nonneg _) hγ
      linarith
    · have b1 : |Rounded.val c| * I.mag ≤ (|k| + γ) * (s.mag + s.magErr) :=
        (mul_le_mul_of_nonneg_left a2 (abs_nonneg _)).trans (mul_le_mul_of_nonneg_right hk (by positivity))
      nlinarith
    · have b1 : max 1 |Rounded.val c| * I.scale ≤ (max 1 |k| + γ) * (s.scale + s.scaleErr) :=
        (mul_le_mul_of_nonneg_left a3 (zero_le_one.trans (le_max_left _ _))).trans
          (mul_le_mul_of_nonneg_right hm (by positivity))
      nlinarith

end floats

section ops
variable {F : Type} [PyOps F] [RoundedOps F]

local notation "𝓊" => (Rounded.u F)
local notation "𝒽" => (Rounded.η F)

/-- A float, and derivatives, that are close to those of a formula. -/
structure FNear (n : VarId → ℝ) (x : F) (g : Grad) (φ : Formula) : Prop where
  fin : Rounded.Fin x
  nom : |Rounded.val x - φ.eval n| ≤ φ.err 𝓊 𝒽 n
  grad : ∀ v, InfoNear (g v) (φ.sens 𝓊 𝒽 n v) (φ.grad n v) (φ.count v) φ.depth

theorem FNear.const (n : VarId → ℝ) {c : F} (h : Rounded.Fin c) : FNear n c Grad.zero (.const (Rounded.val c)) :=
  ⟨h, by simp [Formula.eval, Formula.err], fun v => ⟨rfl, rfl, rfl⟩⟩

theorem FNear.var (n : VarId → ℝ) {c : F} {v : VarId} (h : Rounded.Fin c) (hv : n v = Rounded.val c) :
    FNear n c (Grad.single v) (.var v) := by
  refine ⟨h, by simp [Formula.eval, Formula.err, hv], fun w => ?_⟩
  by_cases hw : w = v
  · subst hw
    simp only [Grad.single, if_true, Formula.sens, Formula.grad, Formula.count, InfoNear]
    refine ⟨le_rfl, trivial, le_rfl, ⟨by simp [Sens.one], by simp [Sens.one], by simp [Sens.one], by simp [Sens.one]⟩, ?_⟩
    simp [Sens.one]
  · simp only [Grad.single, if_neg hw, Formula.sens, Formula.grad, Formula.count, if_neg (Ne.symm hw), InfoNear]
    exact ⟨trivial, trivial, trivial⟩

theorem geb_zero {x : F} (h : Rounded.Fin x) : geb x 0 = true ↔ 0 ≤ Rounded.val x := by
  unfold geb
  rw [Bool.or_eq_true, RoundedOps.zero_ltb x h]
  constructor
  · rintro (h1 | h1)
    · exact h1.le
    · exact (Rounded.eqb_zero x h1).2.ge
  · intro h1
    rcases h1.lt_or_eq with h2 | h2
    · exact Or.inl h2
    · right
      by_contra h3
      exact RoundedStep.ne_zero x h (by simpa using h3) h2.symm

theorem fin_neg_one (h : Rounded.Fin (-1 : F)) : Rounded.val (-1 : F) = -1 := by
  rw [(RoundedOps.neg (1 : F) h).2, Rounded.val_one]

/-- The unary operators. -/
theorem FNear.unop (n : VarId → ℝ) {op : UnOp} {x y c : F} {g : Grad} {φ ψ : Formula} (h : FNear n x g φ)
    (hφ : op.formula φ = some ψ) (hs : ψ.Safe 𝓊 𝒽 n) (hy : op.onFloat x = .ok y) (hc : op.deriv x = .ok c)
    (hf : Rounded.Fin y) : FNear n y (Grad.comb [(c, g)]) ψ := by
  have key : ∀ k : ℝ, (k = 1 ∨ k = -1) → (Rounded.Fin c → Rounded.val c = k) → ∀ v,
      InfoNear (Grad.comb [(c, g)] v) (φ.sens 𝓊 𝒽 n v) (k * φ.grad n v) (φ.count v) (φ.depth + 1) := by
    intro k hk hck v
    have := (h.grad v).smul (c := c) (k := k) (γ := 0) (fun _ => le_rfl) (fun _ hc => by rw [hck hc]; simp)
    have e : (φ.sens 𝓊 𝒽 n v).smul k 0 = φ.sens 𝓊 𝒽 n v := by
      rcases hk with rfl | rfl
      · exact Sens.smul_one _
      · exact Sens.smul_neg_one _
    rw [e] at this
    have e2 : Grad.comb [(c, g)] v = (g v).map (Info.smul c) := by simp [Grad.comb, Grad.smul]
    rw [e2]
    exact this
  cases op with
  | trunc => cases hφ
  | pos =>
    cases hφ
    cases hy
    cases hc
    refine ⟨hf, h.nom, fun v => ?_⟩
    have := key 1 (Or.inl rfl) (fun _ => Rounded.val_one) v
    rw [one_mul] at this
    exact this
  | neg =>
    cases hφ
    cases hy
    cases hc
    refine ⟨hf, ?_, fun v => ?_⟩
    · rw [(RoundedOps.neg x hf).2]
      have e : -Rounded.val x - φ.neg.eval n = -(Rounded.val x - φ.eval n) := by simp only [Formula.eval]; ring
      rw [e, abs_neg]
      exact h.nom
    · have := key (-1) (Or.inr rfl) fin_neg_one v
      rw [neg_one_mul] at this
      exact this
  | abs =>
    cases hφ
    cases hy
    have h0 : φ.err 𝓊 𝒽 n < |φ.eval n| := hs.2
    refine ⟨hf, ?_, fun v => ?_⟩
    · rw [(Rounded.abs x hf).2]
      exact (abs_abs_sub_abs_le _ _).trans h.nom
    · have hn := abs_le.1 h.nom
      rcases lt_or_ge 0 (φ.eval n) with hp | hp
      · rw [abs_of_pos hp] at h0
        have hg : geb x 0 = true := (geb_zero h.fin).2 (by linarith)
        have e : c = 1 := by
          simp only [UnOp.deriv, hg, if_true] at hc
          cases hc; rfl
        have := key 1 (Or.inl rfl) (fun _ => by rw [e, Rounded.val_one]) v
        have e3 : φ.abs.grad n v = 1 * φ.grad n v := by simp only [Formula.grad, sign_pos hp]; simp
        rw [e3]
        exact this
      · have hp' : φ.eval n < 0 := by
          rcases hp.lt_or_eq with h1 | h1
          · exact h1
          · rw [h1, abs_zero] at h0
            have := (abs_nonneg _).trans h.nom
            linarith
        rw [abs_of_neg hp'] at h0
        have hg : geb x 0 = false := by
          rw [Bool.eq_false_iff]
          intro hg
          have := (geb_zero h.fin).1 hg
          linarith
        have e : c = -1 := by
          simp only [UnOp.deriv, hg, Bool.false_eq_true, if_false] at hc
          cases hc; rfl
        have := key (-1) (Or.inr rfl) (fun hf => by rw [e] at hf ⊢; exact fin_neg_one hf) v
        have e3 : φ.abs.grad n v = -1 * φ.grad n v := by simp only [Formula.grad, sign_neg hp']; simp
        rw [e3]
        exact this

/-- The binary operators. -/
theorem FNear.binop (n : VarId → ℝ) {op : BinOp} {x y z c d : F} {g h k : Grad} {φ ψ χ : Formula}
    (hx : FNear n x g φ) (hy : FNear n y h ψ)
    (hφ : op.formula φ ψ = some χ) (hs : χ.Safe 𝓊 𝒽 n) (hz : op.onFloats x y = .ok (.flt z))
    (hc : g ≠ Grad.zero → op.deriv0 x y = .ok c) (hd : h ≠ Grad.zero → op.deriv1 x y = .ok d)
    (hcst : h ≠ Grad.zero → ψ.isConst = false)
    (hk : k = Grad.add (Grad.smul c g) (Grad.smul d h)) (hf : Rounded.Fin z) : FNear n z k χ := by
  have hu : 0 ≤ 𝓊 := Rounded.u_nonneg
  have hη : 0 ≤ 𝒽 := Rounded.η_nonneg
  have ne : ∀ {l : Grad} {v : VarId}, l v ≠ none → l ≠ Grad.zero := fun h e => h (by rw [e]; rfl)
  have key : ∀ (p q γ δ : ℝ) (v : VarId),
      (g v ≠ none → 0 ≤ γ) → (g v ≠ none → Rounded.Fin c → |Rounded.val c - p| ≤ γ) →
      (h v ≠ none → 0 ≤ δ) → (h v ≠ none → Rounded.Fin d → |Rounded.val d - q| ≤ δ) →
      InfoNear (k v) (((φ.sens 𝓊 𝒽 n v).smul p γ).add ((ψ.sens 𝓊 𝒽 n v).smul q δ)) (p * φ.grad n v + q * ψ.grad n v)
        (φ.count v + ψ.count v) (max φ.depth ψ.depth + 1) := by
    intro p q γ δ v h1 h2 h3 h4
    have a := ((hx.grad v).smul (c := c) h1 h2).depth_mono (Nat.succ_le_succ (le_max_left φ.depth ψ.depth))
    have b := ((hy.grad v).smul (c := d) h3 h4).depth_mono (Nat.succ_le_succ (le_max_right φ.depth ψ.depth))
    rw [hk]
    exact a.add b
  have hnx := hx.nom
  have hny := hy.nom
  cases op with
  | floordiv => cases hφ
  | mod => cases hφ
  | pow => cases hφ
  | add =>
    cases hφ
    cases hz
    refine ⟨hf, ?_, fun v => ?_⟩
    · refine roundingError_of hu ?_ (by simpa using (Rounded.add x y hf).2.2)
      show |Rounded.val x + Rounded.val y - (φ.eval n + ψ.eval n)| ≤ _
      rw [add_sub_add_comm]
      exact (abs_add_le _ _).trans (add_le_add hnx hny)
    · have := key 1 1 0 0 v (fun _ => le_rfl) (fun hg _ => by cases hc (ne hg); simp [Rounded.val_one]) (fun _ => le_rfl)
        (fun hg _ => by cases hd (ne hg); simp [Rounded.val_one])
      simp only [Sens.smul_one, one_mul] at this
      exact this
  | sub =>
    cases hφ
    cases hz
    refine ⟨hf, ?_, fun v => ?_⟩
    · refine roundingError_of hu ?_ (by simpa using (RoundedStep.sub x y hf).2.2)
      show |Rounded.val x - Rounded.val y - (φ.eval n - ψ.eval n)| ≤ _
      rw [sub_sub_sub_comm]
      exact (abs_sub _ _).trans (add_le_add hnx hny)
    · have := key 1 (-1) 0 0 v (fun _ => le_rfl) (fun hg _ => by cases hc (ne hg); simp [Rounded.val_one])
        (fun _ => le_rfl) (fun hg hf => by cases hd (ne hg); rw [fin_neg_one hf]; simp)
      simp only [Sens.smul_one, Sens.smul_neg_one, one_mul, neg_one_mul, ← sub_eq_add_neg] at this
      exact this
  | mul =>
    cases hφ
    cases hz
    refine ⟨hf, roundingError_of hu (productError_of hnx hny) (Rounded.mul x y hf).2.2, fun v => ?_⟩
    exact key (ψ.eval n) (φ.eval n) (ψ.err 𝓊 𝒽 n) (φ.err 𝓊 𝒽 n) v (fun _ => (abs_nonneg _).trans hny)
      (fun hg _ => by cases hc (ne hg); exact hny) (fun _ => (abs_nonneg _).trans hnx)
      (fun hg _ => by cases hd (ne hg); exact hnx)
  | truediv =>
    cases hφ
    obtain ⟨hs1, hs2, hs3, hs4⟩ := hs
    have hex : 0 ≤ φ.err 𝓊 𝒽 n := (abs_nonneg _).trans hnx
    have hey : 0 ≤ ψ.err 𝓊 𝒽 n := (abs_nonneg _).trans hny
    have hz' : PyFloat.truediv x y = .ok z := by
      simp only [BinOp.onFloats] at hz
      cases ht : PyFloat.truediv x y with
      | error e => rw [ht] at hz; cases hz
      | ok w =>
        rw [ht] at hz
        cases hz
        rfl
    refine ⟨hf, roundingError_of hu (quotientError_of hnx hny hs3) (RoundedDiv.div x y z hz' hf hy.fin).2.2, fun v => ?_⟩
    have := key (1 / ψ.eval n) (-(φ.eval n / ψ.eval n ^ 2)) (inverseError 𝓊 𝒽 (ψ.eval n) (ψ.err 𝓊 𝒽 n))
      (quotientDerivError 𝓊 𝒽 (φ.eval n) (φ.err 𝓊 𝒽 n) (ψ.eval n) (ψ.err 𝓊 𝒽 n)) v
      (fun _ => inverseError_nonneg hu hη hey hs3) ?_
      (fun hg => quotientDerivError_nonneg hu hη hex hey (hs4 (hcst (ne hg)))) ?_
    · rw [Sens.smul_neg] at this
      exact this
    · intro hg hfc
      have hc := hc (ne hg)
      have := (RoundedDiv.div 1 y c hc hfc hy.fin).2.2
      rw [Rounded.val_one] at this
      exact inverseError_of hu hny hs3 this
    · intro hg hfd
      have hd := hd (ne hg)
      simp only [BinOp.deriv1] at hd
      cases hy2 : PyFloat.sq y with
      | error e => rw [hy2] at hd; cases hd
      | ok y2 =>
        rw [hy2] at hd
        have f2 := RoundedOps.sq_fin y y2 hy2 hy.fin
        obtain ⟨d1, d2, d3⟩ := RoundedDiv.div (-x) y2 d hd hfd f2
        rw [(RoundedOps.neg x d1).2] at d3
        exact quotientDerivError_of hu hnx (squareError_of hu hny (Rounded.sq y y2 hy2 f2).2) (hs4 (hcst (ne hg))) d3

/-- Functions of one argument. -/
theorem FNear.fn1 (n : VarId → ℝ) {df : WrapDef F} {s : FnSpec1} (hs : Implements1 df s) {x y c : F} {g : Grad} {φ : Formula}
    (h : FNear n x g φ) (hsafe : (Formula.fn1 s φ).Safe 𝓊 𝒽 n) (hy : df.f [.flt x] [] = .ok (.flt y))
    (hc : df.specPos 0 [.flt x] [] = .ok c) (hf : Rounded.Fin y) : FNear n y (Grad.comb [(c, g)]) (.fn1 s φ) := by
  obtain ⟨h1, h2, h3⟩ := hsafe
  have e0 : 0 ≤ φ.err 𝓊 𝒽 n := (abs_nonneg _).trans h.nom
  have d1 := h3 _ h.nom
  have d2 := h3 (φ.eval n) (by simpa using e0)
  refine ⟨hf, ?_, fun v => ?_⟩
  · have a1 := hs.value x y h.fin d1 hy hf
    have a2 := (h2.lip _ _ d1 d2).trans (mul_le_mul_of_nonneg_left h.nom h2.lip_nonneg)
    have e : Rounded.val y - s.g (φ.eval n) = (s.g (Rounded.val x) - s.g (φ.eval n)) + (Rounded.val y - s.g (Rounded.val x)) := by
      ring
    simp only [Formula.eval, Formula.err]
    rw [e]
    exact (abs_add_le _ _).trans (add_le_add a2 a1)
  · have e2 : Grad.comb [(c, g)] v = (g v).map (Info.smul c) := by simp [Grad.comb, Grad.smul]
    rw [e2]
    refine (h.grad v).smul (c := c) (k := s.d (φ.eval n)) (γ := s.dlip * φ.err 𝓊 𝒽 n + s.dacc)
      (fun _ => add_nonneg (mul_nonneg h2.dlip_nonneg e0) h2.dacc_nonneg) (fun _ hfc => ?_)
    have a1 := hs.deriv x c h.fin d1 hc hfc
    have a2 := (h2.dlip _ _ d1 d2).trans (mul_le_mul_of_nonneg_left h.nom h2.dlip_nonneg)
    have e : Rounded.val c - s.d (φ.eval n) = (s.d (Rounded.val x) - s.d (φ.eval n)) + (Rounded.val c - s.d (Rounded.val x)) := by
      ring
    rw [e]
    exact (abs_add_le _ _).trans (add_le_add a2 a1)

/-- Functions of two arguments. -/
theorem FNear.fn2 (n : VarId → ℝ) {df : WrapDef F} {s : FnSpec2} (hs : Implements2 df s) {x y z c d : F} {g h k : Grad}
    {φ ψ : Formula} (hx : FNear n x g φ) (hy : FNear n y h ψ) (hsafe : (Formula.fn2 s φ ψ).Safe 𝓊 𝒽 n)
    (hz : df.f [.flt x, .flt y] [] = .ok (.flt z))
    (hc : g ≠ Grad.zero → df.specPos 0 [.flt x, .flt y] [] = .ok c)
    (hd : h ≠ Grad.zero → df.specPos 1 [.flt x, .flt y] [] = .ok d)
    (hk : k = Grad.add (Grad.smul c g) (Grad.smul d h)) (hf : Rounded.Fin z) : FNear n z k (.fn2 s φ ψ) := by
  obtain ⟨-, -, h2, h3⟩ := hsafe
  have e0 : 0 ≤ φ.err 𝓊 𝒽 n := (abs_nonneg _).trans hx.nom
  have e1 : 0 ≤ ψ.err 𝓊 𝒽 n := (abs_nonneg _).trans hy.nom
  have d1 := h3 _ _ hx.nom hy.nom
  have d2 := h3 (φ.eval n) (ψ.eval n) (by simpa using e0) (by simpa using e1)
  have ne : ∀ {l : Grad} {v : VarId}, l v ≠ none → l ≠ Grad.zero := fun h e => h (by rw [e]; rfl)
  have lip : ∀ {A B : ℝ}, 0 ≤ A → 0 ≤ B → A * |Rounded.val x - φ.eval n| + B * |Rounded.val y - ψ.eval n| ≤
      A * φ.err 𝓊 𝒽 n + B * ψ.err 𝓊 𝒽 n := fun hA hB =>
    add_le_add (mul_le_mul_of_nonneg_left hx.nom hA) (mul_le_mul_of_nonneg_left hy.nom hB)
  have tri : ∀ {p q r A B : ℝ}, |q - r| ≤ A → |p - q| ≤ B → |p - r| ≤ A + B := by
    intro p q r A B h1 h2
    have e : p - r = (q - r) + (p - q) := by ring
    rw [e]
    exact (abs_add_le _ _).trans (add_le_add h1 h2)
  refine ⟨hf, ?_, fun v => ?_⟩
  · exact tri ((h2.lip _ _ _ _ d1 d2).trans (lip h2.lip_nonneg.1 h2.lip_nonneg.2)) (hs.value x y z hx.fin hy.fin d1 hz hf)
  · rw [hk]
    have a := ((hx.grad v).smul (c := c) (k := s.d0 (φ.eval n) (ψ.eval n))
      (γ := s.d0lip0 * φ.err 𝓊 𝒽 n + s.d0lip1 * ψ.err 𝓊 𝒽 n + s.dacc0)
      (fun _ => add_nonneg (add_nonneg (mul_nonneg h2.d0lip_nonneg.1 e0) (mul_nonneg h2.d0lip_nonneg.2 e1)) h2.dacc_nonneg.1)
      (fun hg hfc => tri ((h2.d0lip _ _ _ _ d1 d2).trans (lip h2.d0lip_nonneg.1 h2.d0lip_nonneg.2))
        (hs.deriv0 x y c hx.fin hy.fin d1 (hc (ne hg)) hfc))).depth_mono (Nat.succ_le_succ (le_max_left φ.depth ψ.depth))
    have b := ((hy.grad v).smul (c := d) (k := s.d1 (φ.eval n) (ψ.eval n))
      (γ := s.d1lip0 * φ.err 𝓊 𝒽 n + s.d1lip1 * ψ.err 𝓊 𝒽 n + s.dacc1)
      (fun _ => add_nonneg (add_nonneg (mul_nonneg h2.d1lip_nonneg.1 e0) (mul_nonneg h2.d1lip_nonneg.2 e1)) h2.dacc_nonneg.2)
      (fun hg hfc => tri ((h2.d1lip _ _ _ _ d1 d2).trans (lip h2.d1lip_nonneg.1 h2.d1lip_nonneg.2))
        (hs.deriv1 x y d hx.fin hy.fin d1 (hd (ne hg)) hfc))).depth_mono (Nat.succ_le_succ (le_max_right φ.depth ψ.depth))
    exact a.add b

end ops

end Unc
