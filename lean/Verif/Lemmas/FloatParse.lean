import Verif.Lemmas.ParseGeneric
import Verif.Lemmas.FloatDigits

/-! # The parser with floating-point arithmetic -/

set_option autoImplicit false

namespace Unc

namespace FlOps.Sound

variable {f : FlOps}

theorem close_rnd (hf : f.Sound) {a q b : ℚ} (h : |q - b| ≤ |b| * a) (h0 : 0 ≤ a) (h1 : a ≤ 1 / 100) (hb : Ranged b) :
    |f.rnd q - b| ≤ |b| * (a + 11 / 10 ^ 16) := by
  rcases hb with rfl | ⟨b1, b2⟩
  · rw [abs_zero, zero_mul, sub_zero] at h
    obtain rfl : q = 0 := abs_eq_zero.1 (le_antisymm h (abs_nonneg q))
    rw [hf.rnd_zero]
    simp
  · have e1 : (10 : ℚ) ^ (-290 : ℤ) = (10 : ℚ) ^ (-291 : ℤ) * 10 := by
      rw [show (-290 : ℤ) = -291 + 1 by norm_num, ten_add, zpow_one]
    have e2 : (10 : ℚ) ^ (291 : ℤ) = (10 : ℚ) ^ (290 : ℤ) * 10 := by
      rw [show (291 : ℤ) = 290 + 1 by norm_num, ten_add, zpow_one]
    have t0 := ten_pos (-291)
    have hbp : 0 < |b| := (ten_pos _).trans_le b1
    have h3 : |b| * a ≤ |b| / 100 := by
      have := mul_le_mul_of_nonneg_left h1 hbp.le
      linarith
    have h4 := abs_sub_abs_le_abs_sub q b
    have h5 := abs_sub_abs_le_abs_sub b q
    rw [abs_sub_comm b q] at h5
    have q1 : (10 : ℚ) ^ (-300 : ℤ) ≤ |q| := by
      refine le_trans (ten_le_iff.2 (by norm_num : (-300 : ℤ) ≤ -291)) ?_
      linarith
    have q2 : |q| ≤ (10 : ℚ) ^ (300 : ℤ) := by
      refine le_trans ?_ (ten_le_iff.2 (by norm_num : (291 : ℤ) ≤ 300))
      rw [e2]
      generalize (10 : ℚ) ^ (290 : ℤ) = A at b2
      linarith
    have h6 := hf.rnd_near q q1 q2
    have h7 : |f.rnd q - b| ≤ |f.rnd q - q| + |q - b| := abs_sub_le _ _ _
    have h8 : |q| ≤ 11 / 10 * |b| := by linarith
    have h9 : |b| * (a + 11 / 10 ^ 16) = |b| * a + 11 / 10 * |b| / 10 ^ 15 := by ring
    rw [h9]
    have h10 : |q| / 10 ^ 15 ≤ 11 / 10 * |b| / 10 ^ 15 := div_le_div_of_nonneg_right h8 (by norm_num)
    linarith

theorem close_mul_ten (hf : f.Sound) {a q b : ℚ} (h : |q - b| ≤ |b| * a) (h0 : 0 ≤ a) (ha : a ≤ 1 / 100) {e : ℤ}
    (h1 : -300 ≤ e) (h2 : e ≤ 300) : |q * f.ten e - b * (10 : ℚ) ^ e| ≤ |b * (10 : ℚ) ^ e| * (a + 11 / 10 ^ 16) := by
  have ht := hf.ten_near e h1 h2
  have hp := ten_pos e
  have e1 : q * f.ten e - b * (10 : ℚ) ^ e = (q - b) * (10 : ℚ) ^ e + q * (f.ten e - (10 : ℚ) ^ e) := by ring
  rw [e1, abs_mul b, abs_of_pos hp]
  have h3 := abs_sub_abs_le_abs_sub q b
  have hb0 := abs_nonneg b
  have h4 : |b| * a ≤ |b| / 100 := by
    have := mul_le_mul_of_nonneg_left ha hb0
    linarith
  have h5 : |q| ≤ 11 / 10 * |b| := by linarith
  calc |(q - b) * (10 : ℚ) ^ e + q * (f.ten e - (10 : ℚ) ^ e)|
      ≤ |(q - b) * (10 : ℚ) ^ e| + |q * (f.ten e - (10 : ℚ) ^ e)| := abs_add_le _ _
    _ = |q - b| * (10 : ℚ) ^ e + |q| * |f.ten e - (10 : ℚ) ^ e| := by rw [abs_mul, abs_mul, abs_of_pos hp]
    _ ≤ |b| * a * (10 : ℚ) ^ e + 11 / 10 * |b| * ((10 : ℚ) ^ e / 10 ^ 15) :=
        add_le_add (mul_le_mul_of_nonneg_right h hp.le)
          (mul_le_mul h5 ht (abs_nonneg _) (by linarith))
    _ = |b| * (10 : ℚ) ^ e * (a + 11 / 10 ^ 16) := by ring

theorem close_div_ten (hf : f.Sound) {a q b : ℚ} (h : |q - b| ≤ |b| * a) (h0 : 0 ≤ a) (ha : a ≤ 1 / 100) {e : ℤ}
    (h1 : -300 ≤ e) (h2 : e ≤ 300) : |q / f.ten e - b / (10 : ℚ) ^ e| ≤ |b / (10 : ℚ) ^ e| * (a + 12 / 10 ^ 16) := by
  obtain ⟨t1, t2, t3⟩ := hf.ten_bounds h1 h2
  have ht := hf.ten_near e h1 h2
  have hp := ten_pos e
  have e1 : q / f.ten e - b / (10 : ℚ) ^ e = ((q - b) * (10 : ℚ) ^ e - b * (f.ten e - (10 : ℚ) ^ e)) / (f.ten e * (10 : ℚ) ^ e) := by
    field_simp
    ring
  have hb0 := abs_nonneg b
  rw [e1, abs_div, abs_div, abs_of_pos hp, abs_of_pos (mul_pos t3 hp), div_le_iff₀ (mul_pos t3 hp)]
  calc |(q - b) * (10 : ℚ) ^ e - b * (f.ten e - (10 : ℚ) ^ e)|
      ≤ |(q - b) * (10 : ℚ) ^ e| + |b * (f.ten e - (10 : ℚ) ^ e)| := abs_sub _ _
    _ = |q - b| * (10 : ℚ) ^ e + |b| * |f.ten e - (10 : ℚ) ^ e| := by rw [abs_mul, abs_mul, abs_of_pos hp]
    _ ≤ |b| * a * (10 : ℚ) ^ e + |b| * ((10 : ℚ) ^ e / 10 ^ 15) :=
        add_le_add (mul_le_mul_of_nonneg_right h hp.le) (mul_le_mul_of_nonneg_left ht hb0)
    _ = |b| * ((10 : ℚ) ^ e * (a + 1 / 10 ^ 15)) := by ring
    _ ≤ |b| * ((10 : ℚ) ^ e * ((1 - 1 / 10 ^ 15) * (a + 12 / 10 ^ 16))) := by
        refine mul_le_mul_of_nonneg_left (mul_le_mul_of_nonneg_left ?_ hp.le) hb0
        nlinarith
    _ = |b| * (((10 : ℚ) ^ e * (1 - 1 / 10 ^ 15)) * (a + 12 / 10 ^ 16)) := by ring
    _ ≤ |b| * (f.ten e * (a + 12 / 10 ^ 16)) := by
        refine mul_le_mul_of_nonneg_left (mul_le_mul_of_nonneg_right t1 ?_) hb0
        linarith
    _ = |b| / (10 : ℚ) ^ e * (a + 12 / 10 ^ 16) * (f.ten e * (10 : ℚ) ^ e) := by field_simp

/-- The sign is kept. -/
theorem close_nonneg {a q b : ℚ} (h : |q - b| ≤ |b| * a) (ha : a ≤ 1 / 100) (hb : 0 ≤ b) : 0 ≤ q := by
  rw [abs_of_nonneg hb, abs_le] at h
  nlinarith [h.1]

end FlOps.Sound

theorem ofStr_fl (f : FlOps) : ∀ s, (PyText.ofStr s : Option (Fl f)) = (pyFloat s).map f.nearest := fun _ => rfl

theorem pow10_fl {f : FlOps} {n : ℤ} (hn : n ≤ 300) : (PyText.pow10 n : PyRes (Fl f)) = .ok (FNum.fin (f.ten n)) := by
  show (if 308 < n then _ else _) = _
  rw [if_neg (by omega)]
  rfl

/-- The product of a number and of a power of ten (or one). -/
theorem mul_fl {f : FlOps} (q k : ℚ) : (PyText.mul (FNum.fin q : Fl f) (FNum.fin k : Fl f) : Fl f) = FNum.fin (f.rnd (q * k)) := rfl

/-- The number read is `x` up to a relative error of `a`. -/
def Approx (a : ℚ) : FNum → FNum → Prop
  | .fin y, .fin x => |y - x| ≤ |x| * a
  | .inf s, .inf t => s = t
  | .nan, .nan => True
  | _, _ => False

theorem Approx.readAs {a : ℚ} {y x : FNum} (h : Approx a y x) (ha : a ≤ 1 / 10 ^ 14) : ReadAs y x := by
  cases y <;> cases x <;> try exact h
  rename_i y x
  show |y - x| ≤ |x| / 10 ^ 14
  have h' : |y - x| ≤ |x| * a := h
  have := mul_le_mul_of_nonneg_left ha (abs_nonneg x)
  linarith

theorem Approx.mono {a b : ℚ} {y x : FNum} (h : Approx a y x) (ha : a ≤ b) : Approx b y x := by
  cases y <;> cases x <;> try exact h
  rename_i y x
  exact le_trans (show |y - x| ≤ |x| * a from h) (mul_le_mul_of_nonneg_left ha (abs_nonneg x))

theorem approx_nearest {f : FlOps} (hf : f.Sound) {x : FNum} (hx : ∀ v, x = .fin v → Ranged v) :
    Approx (11 / 10 ^ 16) (f.nearest x) x := by
  cases x with
  | fin v =>
    have := hf.close_rnd (q := v) (b := v) (a := 0) (by simp) le_rfl (by norm_num) (hx v rfl)
    rwa [zero_add] at this
  | inf s => rfl
  | nan => trivial

theorem approx_mul_ten {f : FlOps} (hf : f.Sound) {a : ℚ} {y x : FNum} (h : Approx a y x) (h0 : 0 ≤ a) (ha : a ≤ 1 / 1000) {n : ℤ}
    (h1 : -300 ≤ n) (h2 : n ≤ 300) (hx : ∀ v, x = .fin v → Ranged (v * 10 ^ n)) :
    Approx (a + 22 / 10 ^ 16) (PyText.mul (F := Fl f) y (FNum.fin (f.ten n) : Fl f) : Fl f) (x.scale (10 ^ n)) := by
  cases y <;> cases x <;> try exact h.elim
  · rename_i y x
    have h3 := hf.close_mul_ten (q := y) (b := x) h h0 (by linarith) h1 h2
    have h4 := hf.close_rnd h3 (by linarith) (by linarith) (hx x rfl)
    rw [show a + 22 / 10 ^ 16 = a + 11 / 10 ^ 16 + 11 / 10 ^ 16 by ring]
    exact h4
  · rename_i s t
    obtain ⟨-, -, t3⟩ := hf.ten_bounds h1 h2
    have h' : s = t := h
    show Approx _ (if f.ten n = 0 then FNum.nan else FNum.inf s) (FNum.inf t)
    rw [if_neg t3.ne']
    exact h'
  · trivial

theorem approx_mul_one {f : FlOps} (hf : f.Sound) {a : ℚ} {y x : FNum} (h : Approx a y x) (h0 : 0 ≤ a) (ha : a ≤ 1 / 1000)
    (hx : ∀ v, x = .fin v → Ranged v) :
    Approx (a + 22 / 10 ^ 16) (PyText.mul (F := Fl f) y (PyText.one : Fl f) : Fl f) x := by
  cases y <;> cases x <;> try exact h.elim
  · rename_i y x
    show |f.rnd (y * 1) - x| ≤ |x| * (a + 22 / 10 ^ 16)
    rw [mul_one]
    have h4 := hf.close_rnd h h0 (by linarith) (hx x rfl)
    exact h4.trans (mul_le_mul_of_nonneg_left (by norm_num) (abs_nonneg _))
  · rename_i s t
    have h' : s = t := h
    show Approx _ (if (1 : ℚ) = 0 then FNum.nan else FNum.inf s) (FNum.inf t)
    rw [if_neg one_ne_zero]
    exact h'
  · trivial

theorem approx_isNeg {f : FlOps} {a : ℚ} {y x : FNum} (h : Approx a y x) (ha : a ≤ 1 / 100) (hx : x.isNeg = true → x.isInfinite = true) :
    PyText.isNegFinite (F := Fl f) y = false := by
  show (FNum.isNeg y && !FNum.isInfinite y) = false
  cases y <;> cases x <;> try exact h.elim
  · rename_i y x
    have hx' : 0 ≤ x := by
      by_contra hc
      have := hx (by simpa [FNum.isNeg] using hc)
      cases this
    simp [FNum.isNeg, FlOps.Sound.close_nonneg h ha hx']
  · simp [FNum.isInfinite]
  · rfl

theorem isNeg_scale {x : FNum} {k : ℚ} (hk : 0 < k) (hx : x.isNeg = true → x.isInfinite = true) :
    (x.scale k).isNeg = true → (x.scale k).isInfinite = true := by
  cases x with
  | fin v =>
    intro h
    have hv : 0 ≤ v := by
      by_contra hc
      have := hx (by simpa [FNum.isNeg] using hc)
      cases this
    simp only [FNum.scale, FNum.isNeg, decide_eq_true_eq] at h
    exact absurd h (not_lt.2 (mul_nonneg hv hk.le))
  | inf s => exact hx
  | nan => exact hx

theorem scale_scale (x : FNum) (j k : ℚ) : (x.scale j).scale k = x.scale (j * k) := by
  cases x <;> simp [FNum.scale, mul_assoc]

theorem scale_one (x : FNum) : x.scale 1 = x := by cases x <;> simp [FNum.scale]

theorem readNumber_fl {f : FlOps} (hf : f.Sound) {x : FNum} {e : Option ℤ} (he : ∀ k ∈ e, -300 ≤ k ∧ k ≤ 300)
    (hv : ∀ v, x = .fin v → Ranged v) (hv2 : ∀ v, x = .fin v → Ranged (v * 10 ^ e.getD 0)) :
    ∃ y, readNumber f.nearest x e = .ok y ∧ Approx (33 / 10 ^ 16) y (x.scale (10 ^ e.getD 0)) ∧ (e = none → y = f.nearest x) := by
  have h1 := approx_nearest hf hv
  cases e with
  | none =>
    refine ⟨_, rfl, ?_, fun _ => rfl⟩
    simp only [Option.getD_none, zpow_zero, scale_one]
    exact h1.mono (by norm_num)
  | some n =>
    obtain ⟨n1, n2⟩ := he n rfl
    refine ⟨PyText.mul (f.nearest x) (FNum.fin (f.ten n) : Fl f), ?_, ?_, fun h => by cases h⟩
    · show ((PyText.pow10 n : PyRes (Fl f)).bind fun k => .ok (PyText.mul (f.nearest x) k)) = _
      rw [pow10_fl n2]
      rfl
    · exact (approx_mul_ten hf h1 (by norm_num) (by norm_num) n1 n2 hv2).mono (by norm_num)

/-- The factor of an exponent, and the product. -/
theorem factor_fl {f : FlOps} (hf : f.Sound) {X : Str} {n : ℤ} (hX : X = [] → n = 0) (h1 : -300 ≤ n) (h2 : n ≤ 300) :
    ∃ k : Fl f, factorOf (Fl f) X n = .ok k ∧ (X = [] → k = PyText.one) ∧
      ∀ (a : ℚ) (y x : FNum), Approx a y x → 0 ≤ a → a ≤ 1 / 1000 → (∀ v, x = .fin v → Ranged (v * 10 ^ n)) →
        Approx (a + 22 / 10 ^ 16) (PyText.mul (F := Fl f) y k) (x.scale (10 ^ n)) := by
  unfold factorOf
  by_cases h : X = []
  · refine ⟨PyText.one, by rw [if_pos h], fun _ => rfl, ?_⟩
    intro a y x hy ha ha2 hx
    rw [hX h] at hx ⊢
    rw [zpow_zero, scale_one]
    exact approx_mul_one hf hy ha ha2 (fun v hv => by simpa using hx v hv)
  · refine ⟨FNum.fin (f.ten n), by rw [if_neg h]; exact pow10_fl h2, fun hc => absurd hc h, ?_⟩
    intro a y x hy ha ha2 hx
    exact approx_mul_ten hf hy ha ha2 h1 h2 hx

theorem checked_fl {f : FlOps} {a : ℚ} {v w x : FNum} (h : Approx a w x) (ha : a ≤ 1 / 100) (hx : x.isNeg = true → x.isInfinite = true) :
    checkedG ((v, w) : Fl f × Fl f) = .ok (v, w) := by
  unfold checkedG
  rw [if_neg]
  have := approx_isNeg (f := f) h ha hx
  show ¬ (PyText.isNegFinite (F := Fl f) w = true)
  rw [this]
  decide

/-- Both numbers, with the factor. -/
theorem readBoth_fl {f : FlOps} (hf : f.Sound) {x y : FNum} {i j : Option ℤ} {X : Str} {n : ℤ} (hX : X = [] → n = 0)
    (hx : Reach x i n) (hy : Reach y j n) (hneg : y.isNeg = true → y.isInfinite = true) :
    ∃ v w : FNum, ((factorOf (Fl f) X n).bind fun k => (readBoth f.nearest x y i j k).bind checkedG) = .ok (v, w) ∧
        ReadAs v (x.scale (10 ^ i.getD 0 * 10 ^ n)) ∧ ReadAs w (y.scale (10 ^ j.getD 0 * 10 ^ n)) ∧
        (X = [] → i = none → v = (PyText.mul (f.nearest x) PyText.one : Fl f)) ∧
        (X = [] → j = none → w = (PyText.mul (f.nearest y) PyText.one : Fl f)) := by
  obtain ⟨x1, n1, n2, x2⟩ := hx
  obtain ⟨y1, -, -, y2⟩ := hy
  obtain ⟨k, hk, hk1, hkm⟩ := factor_fl hf hX n1 n2
  obtain ⟨v, hv, hv2, hv3⟩ := readNumber_fl hf x1 (fun v h => (x2 v h).1) (fun v h => (x2 v h).2.1)
  obtain ⟨w, hw, hw2, hw3⟩ := readNumber_fl hf y1 (fun v h => (y2 v h).1) (fun v h => (y2 v h).2.1)
  have r : ∀ {z : FNum} {l : Option ℤ} (z2 : ∀ v, z = .fin v → Ranged v ∧ Ranged (v * 10 ^ l.getD 0) ∧ Ranged (v * 10 ^ l.getD 0 * 10 ^ n)),
      ∀ u, z.scale (10 ^ l.getD 0) = .fin u → Ranged (u * 10 ^ n) := by
    intro z l z2 u hu
    cases z with
    | fin q =>
      injection hu with hu
      rw [← hu]
      exact (z2 q rfl).2.2
    | inf s => cases hu
    | nan => cases hu
  have hv4 := hkm _ _ _ hv2 (by norm_num) (by norm_num) (r x2)
  have hw4 := hkm _ _ _ hw2 (by norm_num) (by norm_num) (r y2)
  have hpos : (0 : ℚ) < 10 ^ j.getD 0 * 10 ^ n := mul_pos (ten_pos _) (ten_pos _)
  rw [scale_scale] at hv4 hw4
  refine ⟨_, _, ?_, hv4.readAs (by norm_num), hw4.readAs (by norm_num), ?_, ?_⟩
  · rw [hk]
    show (readBoth f.nearest x y i j k).bind checkedG = _
    unfold readBoth
    rw [hv, hw]
    exact checked_fl hw4 (by norm_num) (isNeg_scale hpos hneg)
  · intro h h'
    rw [hk1 h, hv3 h']
  · intro h h'
    rw [hk1 h, hw3 h']

/-- The uncertainty of the shorthand notation. -/
theorem readShort_fl {f : FlOps} (hf : f.Sound) {places : ℕ} {u : ShortUncert} {x : FNum}
    (hu : u.value ((10 : ℚ) ^ (-(places : ℤ))) = x) (hx : ∀ v, x = .fin v → Ranged v)
    (hun : u.InUnits → places ≤ 300 ∧ ∀ v, x = .fin v → Ranged (v * 10 ^ (places : ℤ))) :
    ∃ w : FNum, readShort f.nearest places u = .ok w ∧ Approx (34 / 10 ^ 16) w x := by
  have key : ∀ m : ℕ, x = .fin (m * (10 : ℚ) ^ (-(places : ℤ))) → places ≤ 300 → Ranged m →
      ∃ w : FNum, ((PyText.pow10 (places : ℤ) : PyRes (Fl f)).bind fun d => PyText.divInt (m : ℤ) d) = .ok w ∧ Approx (34 / 10 ^ 16) w x := by
    intro m hm hp hr
    have p1 : (-300 : ℤ) ≤ places := by omega
    have p2 : (places : ℤ) ≤ 300 := by exact_mod_cast hp
    obtain ⟨-, -, t3⟩ := hf.ten_bounds p1 p2
    refine ⟨.fin (f.rnd (f.rnd m / f.ten places)), ?_, ?_⟩
    · rw [pow10_fl p2]
      show (if f.ten places = 0 then _ else _) = _
      rw [if_neg t3.ne']
      have : (((m : ℤ)) : ℚ) = (m : ℚ) := by push_cast; rfl
      rw [this]
      rfl
    · have h1 := hf.close_rnd (q := m) (b := m) (a := 0) (by simp) le_rfl (by norm_num) hr
      have h2 := hf.close_div_ten h1 (by norm_num) (by norm_num) p1 p2
      have e1 : (m : ℚ) * (10 : ℚ) ^ (-(places : ℤ)) = m / 10 ^ (places : ℤ) := by rw [zpow_neg, div_eq_mul_inv]
      rw [hm, e1]
      have hr2 := hx _ hm
      rw [e1] at hr2
      have h3 := hf.close_rnd h2 (by norm_num) (by norm_num) hr2
      exact h3.trans (mul_le_mul_of_nonneg_left (by norm_num) (abs_nonneg _))
  have hback : ∀ m : ℕ, x = .fin (m * (10 : ℚ) ^ (-(places : ℤ))) → (∀ v, x = .fin v → Ranged (v * 10 ^ (places : ℤ))) → Ranged m := by
    intro m hm h
    have := h _ hm
    rwa [mul_assoc, ← zpow_add₀ (by norm_num : (10 : ℚ) ≠ 0), neg_add_cancel, zpow_zero, mul_one] at this
  cases u with
  | implicit =>
    have hx1 : x = .fin (((1 : ℕ) : ℚ) * (10 : ℚ) ^ (-(places : ℤ))) := by rw [← hu]; simp [ShortUncert.value]
    exact key 1 hx1 (hun trivial).1 (hback 1 hx1 (hun trivial).2)
  | units ds h hne => exact key (digitsVal ds) hu.symm (hun trivial).1 (hback _ hu.symm (hun trivial).2)
  | explicit d h =>
    refine ⟨_, rfl, ?_⟩
    have e : x = .fin d.value := hu.symm
    rw [← e]
    exact (approx_nearest hf hx).mono (by norm_num)
  | nan b =>
    have e : x = .nan := hu.symm
    refine ⟨.nan, rfl, ?_⟩
    rw [e]; trivial
  | inf b =>
    have e : x = .inf false := hu.symm
    refine ⟨.inf false, rfl, ?_⟩
    rw [e]; rfl

/-- Numbers that are represented exactly are not changed by the rounding. -/
structure FlOps.Nearest (f : FlOps) : Prop where
  idem : ∀ q, f.rnd (f.rnd q) = f.rnd q
  nonneg : ∀ q, 0 ≤ q → 0 ≤ f.rnd q
  nat : ∀ n : ℕ, n ≤ 2 ^ 53 → f.rnd n = n
  ten : ∀ p : ℕ, p ≤ 22 → f.ten p = 10 ^ (p : ℤ)

theorem nearest_mul_one {f : FlOps} (hf : f.Nearest) (x : FNum) : PyText.mul (F := Fl f) (f.nearest x) PyText.one = f.nearest x := by
  cases x with
  | fin q =>
    show FNum.fin (f.rnd (f.rnd q * 1)) = FNum.fin (f.rnd q)
    rw [mul_one, hf.idem]
  | inf s =>
    show (if (1 : ℚ) = 0 then FNum.nan else FNum.inf s) = FNum.inf s
    rw [if_neg one_ne_zero]
  | nan => rfl

theorem checked_nearest {f : FlOps} (hf : f.Nearest) (v x : FNum) (hx : x.isNeg = true → x.isInfinite = true) :
    checkedG ((v, f.nearest x) : Fl f × Fl f) = .ok (v, f.nearest x) := by
  unfold checkedG
  rw [if_neg]
  show ¬ ((FNum.isNeg (f.nearest x) && !FNum.isInfinite (f.nearest x)) = true)
  cases x with
  | fin q =>
    have hq : 0 ≤ q := by
      by_contra hc
      have := hx (by simpa [FNum.isNeg] using hc)
      cases this
    show ¬ ((decide (f.rnd q < 0) && _) = true)
    simp [not_lt.2 (hf.nonneg q hq)]
  | inf s => simp [FlOps.nearest, FNum.isInfinite]
  | nan => simp [FlOps.nearest, FNum.isNeg]

/-- A number of units of the last digit. -/
theorem units_nearest {f : FlOps} (hf : f.Nearest) {m places : ℕ} (hm : m ≤ 2 ^ 53) (hp : places ≤ 22) :
    ((PyText.pow10 (places : ℤ) : PyRes (Fl f)).bind fun k => PyText.divInt (m : ℤ) k) =
      .ok (f.nearest (.fin (m * (10 : ℚ) ^ (-(places : ℤ))))) := by
  rw [pow10_fl (by omega), hf.ten _ hp]
  show (if (10 : ℚ) ^ (places : ℤ) = 0 then _ else _) = _
  rw [if_neg (ten_pos _).ne']
  show Except.ok (FNum.fin (f.rnd (f.rnd ((m : ℤ) : ℚ) / (10 : ℚ) ^ (places : ℤ)))) = Except.ok (FNum.fin _)
  rw [Int.cast_natCast, hf.nat m hm, zpow_neg, ← div_eq_mul_inv]

theorem ShortUncert.not_neg (u : ShortUncert) (places : ℕ) :
    (u.value ((10 : ℚ) ^ (-(places : ℤ)))).isNeg = true → (u.value ((10 : ℚ) ^ (-(places : ℤ)))).isInfinite = true := by
  have hp0 := ten_pos (-(places : ℤ))
  cases u with
  | implicit => simp [ShortUncert.value, FNum.isNeg]
  | units ds h hne =>
    have : (0 : ℚ) ≤ digitsVal ds * (10 : ℚ) ^ (-(places : ℤ)) := mul_nonneg (Nat.cast_nonneg _) hp0.le
    intro h
    simp only [ShortUncert.value, FNum.isNeg, decide_eq_true_eq] at h
    exact absurd h (not_lt.2 this)
  | explicit e h =>
    have : (0 : ℚ) ≤ e.value := by unfold Decimal.value; positivity
    intro h
    simp only [ShortUncert.value, FNum.isNeg, decide_eq_true_eq] at h
    exact absurd h (not_lt.2 this)
  | nan b => intro h; cases h
  | inf b => intro h; cases h

theorem fromstr_pm_nearest {f : FlOps} (hf : f.Nearest) {a N pm U b : Str} {x y : FNum} (ha : IsSpaces a) (hb : IsSpaces b)
    (hN : WrittenNum N x none) (hpm : IsPm pm) (hU : WrittenNum U y none) (hneg : y.isNeg = true → y.isInfinite = true) :
    (ufloatFromstr (a ++ (N ++ pm ++ U) ++ b) : PyRes (Fl f × Fl f)) = .ok (f.nearest x, f.nearest y) := by
  rw [fromstrG_pm (ofStr_fl f) ha hb hN hU hpm]
  show checkedG (PyText.mul (F := Fl f) (f.nearest x) PyText.one, PyText.mul (F := Fl f) (f.nearest y) PyText.one) = _
  rw [nearest_mul_one hf, nearest_mul_one hf]
  exact checked_nearest hf _ _ hneg

theorem fromstr_grouped_nearest {f : FlOps} (hf : f.Nearest) {a N pm U b : Str} {x y : FNum} (ha : IsSpaces a) (hb : IsSpaces b)
    (hN : WrittenNum N x none) (hpm : IsPm pm) (hU : WrittenNum U y none) (hneg : y.isNeg = true → y.isInfinite = true) :
    (ufloatFromstr (a ++ ('(' :: (N ++ pm ++ U ++ [')'])) ++ b) : PyRes (Fl f × Fl f)) = .ok (f.nearest x, f.nearest y) := by
  rw [fromstrG_grouped (ofStr_fl f) ha hb hN hU hpm .none]
  show checkedG (PyText.mul (F := Fl f) (f.nearest x) PyText.one, PyText.mul (F := Fl f) (f.nearest y) PyText.one) = _
  rw [nearest_mul_one hf, nearest_mul_one hf]
  exact checked_nearest hf _ _ hneg

theorem fromstr_short_nearest {f : FlOps} (hf : f.Nearest) {a sg b : Str} (d : Decimal) (u : ShortUncert) (ha : IsSpaces a)
    (hb : IsSpaces b) (hsg : IsSign sg) (hun : u.InUnits → d.places ≤ 22 ∧
      ∀ w, u.value ((10 : ℚ) ^ (-(d.places : ℤ))) = .fin w → w ≤ 2 ^ 53 * (10 : ℚ) ^ (-(d.places : ℤ))) :
    (ufloatFromstr (a ++ (sg ++ (d.text ++ u.text)) ++ b) : PyRes (Fl f × Fl f)) =
      .ok (f.nearest (.fin (signVal sg * d.value)), f.nearest (u.value ((10 : ℚ) ^ (-(d.places : ℤ))))) := by
  have h0 := fromstrG_paren (ofStr_fl f) ha hb hsg d u .none
  rw [List.append_nil] at h0
  rw [h0]
  have hp0 := ten_pos (-(d.places : ℤ))
  have hle : ∀ m : ℕ, (m : ℚ) * (10 : ℚ) ^ (-(d.places : ℤ)) ≤ 2 ^ 53 * (10 : ℚ) ^ (-(d.places : ℤ)) → m ≤ 2 ^ 53 := by
    intro m h
    have := le_of_mul_le_mul_right h hp0
    exact_mod_cast this
  have hr : readShort f.nearest d.places u = .ok (f.nearest (u.value ((10 : ℚ) ^ (-(d.places : ℤ))))) := by
    cases u with
    | implicit =>
      have := units_nearest hf (m := 1) (by norm_num) (hun trivial).1
      rw [Nat.cast_one, Nat.cast_one, one_mul] at this
      exact this
    | units ds h hne => exact units_nearest hf (hle _ ((hun trivial).2 _ rfl)) (hun trivial).1
    | explicit e h => rfl
    | nan c => rfl
    | inf c => rfl
  show ((readShort f.nearest d.places u).bind fun w => _) = _
  rw [hr]
  show checkedG (PyText.mul (F := Fl f) (f.nearest _) PyText.one, PyText.mul (F := Fl f) (f.nearest _) PyText.one) = _
  rw [nearest_mul_one hf, nearest_mul_one hf]
  exact checked_nearest hf _ _ (u.not_neg d.places)

/-- What is read in the shorthand notation with an exponent. -/
theorem fromstr_units_exp {f : FlOps} {a sg b : Str} (d : Decimal) {ds : Str} (h : IsDigits ds) (hne : ds ≠ []) (ha : IsSpaces a)
    (hb : IsSpaces b) (hsg : IsSign sg) {X : Str} {n : ℤ} (hX : ExpPart X n) (hX0 : X ≠ []) (hn : n ≤ 300) (hp : d.places ≤ 300)
    (ht : f.ten d.places ≠ 0) (h0 : 0 ≤ f.rnd (f.rnd (f.rnd ((digitsVal ds : ℤ) : ℚ) / f.ten d.places) * f.ten n)) :
    (ufloatFromstr (a ++ (sg ++ (d.text ++ ((ShortUncert.units ds h hne).text ++ X))) ++ b) : PyRes (Fl f × Fl f)) =
      .ok ((FNum.fin (f.rnd (f.rnd (signVal sg * d.value) * f.ten n)) : FNum),
        (FNum.fin (f.rnd (f.rnd (f.rnd ((digitsVal ds : ℤ) : ℚ) / f.ten d.places) * f.ten n)) : FNum)) := by
  rw [fromstrG_paren (ofStr_fl f) ha hb hsg d _ hX]
  unfold factorOf
  rw [if_neg hX0, pow10_fl hn]
  have hr : readShort f.nearest d.places (.units ds h hne) = .ok (FNum.fin (f.rnd (f.rnd ((digitsVal ds : ℤ) : ℚ) / f.ten d.places)) : FNum) := by
    unfold readShort
    simp only []
    rw [pow10_fl (by exact_mod_cast hp)]
    show (if f.ten d.places = 0 then _ else _) = _
    rw [if_neg ht]
    rfl
  show ((readShort f.nearest d.places (.units ds h hne)).bind fun w => _) = _
  rw [hr]
  show checkedG (F := Fl f) ((FNum.fin (f.rnd (f.rnd (signVal sg * d.value) * f.ten n)) : FNum),
        (FNum.fin (f.rnd (f.rnd (f.rnd ((digitsVal ds : ℤ) : ℚ) / f.ten d.places) * f.ten n)) : FNum)) = _
  unfold checkedG
  rw [if_neg]
  show ¬ ((decide (f.rnd (f.rnd (f.rnd ((digitsVal ds : ℤ) : ℚ) / f.ten d.places) * f.ten n) < 0) && _) = true)
  rw [decide_eq_false (not_lt.2 h0)]
  exact Bool.false_ne_true

end Unc
