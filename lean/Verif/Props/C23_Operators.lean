import Verif.Lemmas.DerivOps
import Verif.Lemmas.NumDeriv
import Verif.Props.C05_StdDev
import Verif.Props.C19_Wrap

/-
C21 (numerical derivatives), C23 (derivatives of the operators), C24 (operations with plain numbers),
C25 (powers), C26 (divisions).
-/

namespace Unc

set_option autoImplicit false
set_option linter.unusedSectionVars false

open NR Topology Filter

/-! ### C21 -/

/-- **C21**: the step of numerical differentiation is strictly positive: `STEP_SIZE*|x|`, or
`STEP_SIZE` at 0, with `STEP_SIZE = sqrt(2**-52)`. -/
theorem C21_step (x : ℝ) :
    ∃ h : ℝ, 0 < h ∧ derivStep (fin x) = fin h ∧ (x ≠ 0 → h = Real.sqrt (2 ^ (-52 : ℤ)) * |x|) ∧
      (x = 0 → h = Real.sqrt (2 ^ (-52 : ℤ))) := by
  refine ⟨stepReal x, stepReal_pos x, derivStep_real x, ?_, ?_⟩ <;> intro hx <;>
    simp [stepReal, hx, stepConst]

/-- **C21**: numerical differentiation is exact for polynomials of degree at most 2 in the argument
that is shifted. Positional argument. -/
theorem C21_exact {f : PyFn NR} {xs : List ℝ} {i : Nat} (hi : i < xs.length) {kw : KwArgs NR} {a b c : ℝ}
    (hf : ∀ t, f (flts (xs.set i t)) kw = .ok (.flt (fin (a + b * t + c * t ^ 2)))) :
    partialDerivative f (.pos i) (flts xs) kw = .ok (fin (b + 2 * c * xs.getD i 0)) := by
  rw [partialDerivative_real hi (hf _) (hf _)]
  have := (stepReal_pos (xs.getD i 0)).ne'
  congr 2
  field_simp
  ring

/-- **C21**: idem for a keyword argument. -/
theorem C21_exact_kw {f : PyFn NR} {args : List (PyVal NR)} {kw : KwArgs NR} {name : String} {x : ℝ}
    (hx : kw.lookup name = some (.flt (fin x))) {a b c : ℝ}
    (hf : ∀ t, f args (setKw kw name (.flt (fin t))) = .ok (.flt (fin (a + b * t + c * t ^ 2)))) :
    partialDerivative f (.kw name) args kw = .ok (fin (b + 2 * c * x)) := by
  rw [partialDerivative_real_kw hx (hf _) (hf _)]
  have := (stepReal_pos x).ne'
  congr 2
  field_simp
  ring

/-- **C21**: error of numerical differentiation, for a function whose third derivative is bounded
by `M` in the interval `x ± step`. Positional argument. -/
theorem C21_bound {f : PyFn NR} {xs : List ℝ} {i : Nat} (hi : i < xs.length) {kw : KwArgs NR}
    {g g' g'' g''' : ℝ → ℝ} {x h M : ℝ} (hx : xs.getD i 0 = x) (hh : derivStep (fin x) = fin h)
    (hf : ∀ t, |t - x| ≤ h → f (flts (xs.set i t)) kw = .ok (.flt (fin (g t))))
    (h1 : ∀ t, |t - x| ≤ h → HasDerivAt g (g' t) t) (h2 : ∀ t, |t - x| ≤ h → HasDerivAt g' (g'' t) t)
    (h3 : ∀ t, |t - x| ≤ h → HasDerivAt g'' (g''' t) t) (hM : ∀ t, |t - x| ≤ h → |g''' t| ≤ M) :
    ∃ d, partialDerivative f (.pos i) (flts xs) kw = .ok (fin d) ∧ |d - g' x| ≤ h ^ 2 / 6 * M := by
  rw [derivStep_real] at hh
  injection hh with hh
  subst hx hh
  have hpos := stepReal_pos (xs.getD i 0)
  refine ⟨_, partialDerivative_real hi (hf _ ?_) (hf _ ?_), central_bound hpos h1 h2 h3 hM⟩
  · rw [add_sub_cancel_left, abs_of_pos hpos]
  · rw [sub_sub_cancel_left, abs_neg, abs_of_pos hpos]

/-- **C21**: idem for a keyword argument. -/
theorem C21_bound_kw {f : PyFn NR} {args : List (PyVal NR)} {kw : KwArgs NR} {name : String}
    {g g' g'' g''' : ℝ → ℝ} {x h M : ℝ} (hx : kw.lookup name = some (.flt (fin x)))
    (hh : derivStep (fin x) = fin h)
    (hf : ∀ t, |t - x| ≤ h → f args (setKw kw name (.flt (fin t))) = .ok (.flt (fin (g t))))
    (h1 : ∀ t, |t - x| ≤ h → HasDerivAt g (g' t) t) (h2 : ∀ t, |t - x| ≤ h → HasDerivAt g' (g'' t) t)
    (h3 : ∀ t, |t - x| ≤ h → HasDerivAt g'' (g''' t) t) (hM : ∀ t, |t - x| ≤ h → |g''' t| ≤ M) :
    ∃ d, partialDerivative f (.kw name) args kw = .ok (fin d) ∧ |d - g' x| ≤ h ^ 2 / 6 * M := by
  rw [derivStep_real] at hh
  injection hh with hh
  subst hh
  have hpos := stepReal_pos x
  refine ⟨_, partialDerivative_real_kw hx (hf _ ?_) (hf _ ?_), central_bound hpos h1 h2 h3 hM⟩
  · rw [add_sub_cancel_left, abs_of_pos hpos]
  · rw [sub_sub_cancel_left, abs_neg, abs_of_pos hpos]

/-- `f(a, b) = a*b**2` at (3, 5): derivative 30 with respect to `b`. -/
example : partialDerivative
    (fun | [.flt a, .flt b], _ => .ok (.flt (a * (b * b))) | _, _ => .error .typeError)
    (.pos 1) (flts [3, 5]) [] = .ok (fin 30) := by
  refine (C21_exact (a := 0) (b := 0) (c := 3) (by simp) ?_).trans ?_
  · intro t
    simp only [flts, List.map_cons, List.map_nil, List.set_cons_succ, List.set_cons_zero, fin_mul]
    congr 3; ring
  · simp; norm_num

/-- `f(a) = a**3` at 0: the error is at most `step**2`. -/
example (h : ℝ) (hh : derivStep (fin 0) = fin h) : ∃ d, partialDerivative
    (fun | [.flt a], _ => .ok (.flt (a * (a * a))) | _, _ => .error .typeError)
    (.pos 0) (flts [0]) [] = .ok (fin d) ∧ |d - 3 * 0 ^ 2| ≤ h ^ 2 / 6 * 6 := by
  refine C21_bound (i := 0) (by simp) (g := fun t => t ^ 3) (g' := fun t => 3 * t ^ 2)
    (g'' := fun t => 6 * t) (g''' := fun _ => 6) (M := 6) (by simp) hh ?_ ?_ ?_ ?_ ?_
  · intro t _
    simp only [flts, List.map_cons, List.map_nil, List.set_cons_zero, fin_mul]
    congr 3; ring
  · intro t _
    simpa using hasDerivAt_pow 3 t
  · intro t _
    have := (hasDerivAt_pow 2 t).const_mul 3
    have e : (3:ℝ) * (((2:ℕ):ℝ) * t ^ (2 - 1)) = 6 * t := by push_cast; ring
    rwa [e] at this
  · intro t _
    simpa using (hasDerivAt_id t).const_mul 6
  · intro t _; norm_num

/-! ### Results of operators -/

section
variable {F : Type} [PyMath F] [ExactLin F]

/-- Contribution of an operand to the derivatives of a result: nothing for a plain number. -/
def term (c : F) : Option (Lin F) → List (F × Lin F)
  | none => []
  | some D => [(c, D)]

theorem seen_flt {v : SVal F} {x : F} {A : Option (Lin F)} (h : v.seen = (.flt x, A)) :
    (∃ q, v = .unc q ∧ q.nom = x ∧ A = some q.grad) ∨ (v = .plain (.flt x) ∧ A = none) := by
  cases v with
  | unc q =>
    simp [SVal.seen] at h
    exact Or.inl ⟨q, rfl, h.1, h.2.symm⟩
  | plain p =>
    simp [SVal.seen] at h
    exact Or.inr ⟨by rw [h.1], h.2.symm⟩

theorem specBinop_terms {op : BinOp} {a b : SVal F} {x y z c0 c1 : F} {A B : Option (Lin F)}
    (ha : a.seen = (.flt x, A)) (hb : b.seen = (.flt y, B)) (hu : A ≠ none ∨ B ≠ none)
    (hz : op.onFloats x y = .ok (.flt z)) (h0 : A ≠ none → op.deriv0 x y = .ok c0)
    (h1 : B ≠ none → op.deriv1 x y = .ok c1) :
    (a.isUnc || b.isUnc) = true ∧
    specBinop op a b = .ok (.unc ⟨z, Lin.comb (term c0 A ++ term c1 B), none⟩) := by
  rcases seen_flt ha with ⟨p, rfl, rfl, rfl⟩ | ⟨rfl, rfl⟩ <;>
    rcases seen_flt hb with ⟨q, rfl, rfl, rfl⟩ | ⟨rfl, rfl⟩
  · exact ⟨rfl, specBinop_unc_unc hz (h0 (by simp)) (h1 (by simp))⟩
  · exact ⟨rfl, specBinop_unc_flt hz (h0 (by simp))⟩
  · exact ⟨rfl, specBinop_flt_unc hz (h1 (by simp))⟩
  · rcases hu with h | h <;> exact absurd rfl h

/-- Result of `a op b`, where at least one operand has an uncertainty. -/
theorem binop_results {cs : List (Cmd F)} {op : BinOp} {a b : Arg F} {x y z c0 c1 : F}
    {A B : Option (Lin F)} (ha : SeenAs cs a (.flt x, A)) (hb : SeenAs cs b (.flt y, B))
    (hu : A ≠ none ∨ B ≠ none)
    (hz : op.onFloats x y = .ok (.flt z)) (h0 : A ≠ none → op.deriv0 x y = .ok c0)
    (h1 : B ≠ none → op.deriv1 x y = .ok c1) :
    Results cs (.binop op a b) (.ok (.flt z, some (Lin.comb (term c0 A ++ term c1 B)))) := by
  obtain ⟨s, hs⟩ := Reaches.exists cs
  obtain ⟨va, ea, sa⟩ := hs.seen ha
  obtain ⟨vb, eb, sb⟩ := hs.seen hb
  obtain ⟨e1, e2⟩ := specBinop_terms sa sb hu hz h0 h1
  have := hs.results (c := .binop op a b) rfl
    (r := .ok (.unc ⟨z, Lin.comb (term c0 A ++ term c1 B), none⟩))
    (by simp only [SState.step, ea, eb, e1, e2, if_true])
  exact this

theorem unop_results {cs : List (Cmd F)} {op : UnOp} {a : Arg F} {x z c : F} {A : Lin F}
    (ha : SeenAs cs a (.flt x, some A)) (hz : op.onFloat x = .ok z) (h0 : op.deriv x = .ok c) :
    Results cs (.unop op a) (.ok (.flt z, some (Lin.comb [(c, A)]))) := by
  obtain ⟨s, hs⟩ := Reaches.exists cs
  obtain ⟨va, ea, sa⟩ := hs.seen ha
  rcases seen_flt sa with ⟨p, rfl, rfl, e⟩ | ⟨-, e⟩
  · cases e
    have e2 := specUnop_unc hz h0
    have ep : a.sevalUnc s.env = some p := by simp [Arg.sevalUnc, ea]
    have := hs.results (c := .unop op a) rfl (r := .ok (.unc ⟨z, Lin.comb [(c, p.grad)], none⟩))
      (by simp only [SState.step, ep, e2])
    exact this
  · cases e

end

/-! ### C23 -/

/-- **C23**: `-x`, `+x`, `abs(x)`, `trunc(x)`: at every point where the function has a derivative `d`,
the derivatives of the result are `d` times those of `x`. -/
theorem C23_unop {cs : List (Cmd NR)} {op : UnOp} {a : Arg NR} {x z d : ℝ} {A : Lin NR}
    (ha : SeenAs cs a (.flt (fin x), some A)) (hz : op.func [.flt (fin x)] [] = .ok (.flt (fin z)))
    (hd : IsPartial op.func [x] 0 d) :
    Results cs (.unop op a) (.ok (.flt (fin z), some (Lin.comb [(fin d, A)]))) := by
  have key : ∀ {u v : NR}, op.func [.flt u] [] = .ok (.flt v) → op.onFloat u = .ok v := by
    intro u v h
    simp only [UnOp.func] at h
    cases hu : op.onFloat u with
    | error e => simp [hu, Except.map] at h
    | ok w => simp [hu, Except.map] at h; rw [h]
  obtain ⟨g, h1, h2⟩ := hd
  exact unop_results ha (key hz) (UnOp.deriv_true op (h1.mono fun t ht => key ht) h2)

theorem method_onFloats {op : BinOp} {x y : NR} {v : PyVal NR}
    (h : op.method [.flt x, .flt y] [] = .ok v) : op.onFloats x y = .ok v := h

theorem isPartial_method0 {op : BinOp} {x y d : ℝ} (h : IsPartial op.method [x, y] 0 d) :
    op.deriv0 (fin x) (fin y) = .ok (fin d) := by
  obtain ⟨g, h1, h2⟩ := h
  exact op.deriv0_true (h1.mono fun t ht => method_onFloats ht) h2

theorem isPartial_method1 {op : BinOp} (hop : op ≠ .mod) {x y d : ℝ}
    (h : IsPartial op.method [x, y] 1 d) : op.deriv1 (fin x) (fin y) = .ok (fin d) := by
  obtain ⟨g, h1, h2⟩ := h
  exact op.deriv1_true hop (h1.mono fun t ht => method_onFloats ht) h2

/-- **C23** (partial: all cases but `a % b` with an uncertain `b`, see `C23_mod_partial`):
`a op b`, where each operand is a plain float (`A` or `B` is `none`) or a number with uncertainty. At
every point where the partial derivatives `d0` and `d1` of the operation on real numbers exist, the
derivatives of the result are `d0` times those of `a` plus `d1` times those of `b`. -/
theorem C23_binop_partial {cs : List (Cmd NR)} {op : BinOp} {a b : Arg NR} {x y z d0 d1 : ℝ}
    {A B : Option (Lin NR)} (ha : SeenAs cs a (.flt (fin x), A)) (hb : SeenAs cs b (.flt (fin y), B))
    (hu : A ≠ none ∨ B ≠ none) (hop : op ≠ .mod ∨ B = none)
    (hz : op.method (flts [x, y]) [] = .ok (.flt (fin z)))
    (h0 : A ≠ none → IsPartial op.method [x, y] 0 d0)
    (h1 : B ≠ none → IsPartial op.method [x, y] 1 d1) :
    Results cs (.binop op a b)
      (.ok (.flt (fin z), some (Lin.comb (term (fin d0) A ++ term (fin d1) B)))) := by
  refine binop_results ha hb hu hz (fun h => isPartial_method0 (h0 h)) (fun h => ?_)
  refine isPartial_method1 ?_ (h1 h)
  rcases hop with hop | hop
  · exact hop
  · exact absurd hop h

theorem floor_ev {x y : ℝ} (hy : y ≠ 0) (hn : ∀ k : ℤ, x / y ≠ k) :
    ∀ᶠ t in 𝓝 y, ⌊x / t⌋ = ⌊x / y⌋ := by
  have hc : ContinuousAt (fun t : ℝ => x / t) y := continuousAt_const.div continuousAt_id hy
  have h1 : (⌊x / y⌋ : ℝ) < x / y := lt_of_le_of_ne (Int.floor_le _) (fun h => hn _ h.symm)
  have h2 : x / y < (⌊x / y⌋ : ℝ) + 1 := Int.lt_floor_add_one _
  filter_upwards [hc.eventually (lt_mem_nhds h1), hc.eventually (gt_mem_nhds h2)] with t h3 h4
  exact Int.floor_eq_iff.mpr ⟨h3.le, h4⟩

/-- **C23** (partial): `a % b` with respect to `b`, which is calculated numerically: this is the true
derivative when `a // b` is constant between `b - step` and `b + step`. -/
theorem C23_mod_partial {x y h d : ℝ} (hd : IsPartial (BinOp.method .mod) [x, y] 1 d)
    (hh : derivStep (fin y) = fin h) (hp : ⌊x / (y + h)⌋ = ⌊x / y⌋) (hm : ⌊x / (y - h)⌋ = ⌊x / y⌋) :
    BinOp.deriv1 .mod (fin x) (fin y) = .ok (fin d) := by
  rw [derivStep_real] at hh
  injection hh with hh
  have hval : ∀ {t : ℝ}, t ≠ 0 → BinOp.method .mod [.flt (fin x), .flt (fin t)] [] =
      .ok (.flt (fin (x - t * ⌊x / t⌋))) := by
    intro t ht
    simp [BinOp.method, BinOp.onFloats, PyOps.mod, ht, Except.map]
  obtain ⟨g, h1, h2⟩ := hd
  have hy : y ≠ 0 := by
    rintro rfl
    have := h1.self_of_nhds
    simp [flts, BinOp.method, BinOp.onFloats, PyOps.mod, Except.map] at this
  have hpos : 0 < h := hh ▸ stepReal_pos y
  have hlt : h < |y| := by
    rw [← hh, stepReal, if_neg hy]
    have := mul_lt_mul_of_pos_right stepConst_lt_one (abs_pos.mpr hy)
    simpa using this
  have hyp : y + h ≠ 0 := by
    intro h0
    have : y = -h := by linarith
    rw [this, abs_neg, abs_of_pos hpos] at hlt
    exact lt_irrefl _ hlt
  have hym : y - h ≠ 0 := by
    intro h0
    have : y = h := by linarith
    rw [this, abs_of_pos hpos] at hlt
    exact lt_irrefl _ hlt
  -- the numerical derivative
  have hnum := partialDerivative_real (f := BinOp.method .mod) (xs := [x, y]) (i := 1) (by simp) (kw := [])
    (gp := x - (y + h) * ⌊x / (y + h)⌋) (gm := x - (y - h) * ⌊x / (y - h)⌋)
    (by simpa [flts, hh] using hval hyp) (by simpa [flts, hh] using hval hym)
  have hnum' : BinOp.deriv1 .mod (fin x) (fin y) =
      .ok (fin ((x - (y + h) * ⌊x / (y + h)⌋ - (x - (y - h) * ⌊x / (y - h)⌋)) / 2 / h)) := by
    simpa [BinOp.deriv1, flts, hh] using hnum
  -- the true derivative
  have hg : HasDerivAt (fun t => x - t * ((⌊x / t⌋ : ℤ) : ℝ)) d y := by
    refine h2.congr_of_eventuallyEq ?_
    have h1' : ∀ᶠ t in 𝓝 y, _ := h1
    filter_upwards [h1', eventually_ne_nhds hy] with t ht hne
    have := hval hne
    simp [flts] at ht
    rw [this] at ht
    simpa using ht
  -- the quotient is locally constant
  have hconst : HasDerivAt (fun t => ((⌊x / t⌋ : ℤ) : ℝ)) ((-d * y - (x - (x - y * ⌊x / y⌋)) * 1) / y ^ 2) y := by
    have h3 := ((hasDerivAt_const y x).sub hg).div (hasDerivAt_id y) hy
    have e : ((0 - d) * _root_.id y - (x - (x - y * ((⌊x / y⌋ : ℤ) : ℝ))) * 1) / _root_.id y ^ 2 =
      (-d * y - (x - (x - y * ⌊x / y⌋)) * 1) / y ^ 2 := by simp
    have h4 : HasDerivAt (fun t => (x - (x - t * ((⌊x / t⌋ : ℤ) : ℝ))) / t)
        ((-d * y - (x - (x - y * ⌊x / y⌋)) * 1) / y ^ 2) y := by
      rw [← e]; exact h3
    refine h4.congr_of_eventuallyEq ?_
    filter_upwards [eventually_ne_nhds hy] with t ht
    field_simp
    ring
  have h0 := int_deriv_zero hconst
  have hd' : d = -⌊x / y⌋ := by
    rw [div_eq_zero_iff] at h0
    rcases h0 with h0 | h0
    · have : (-d - ⌊x / y⌋) * y = 0 := by linarith
      rcases mul_eq_zero.mp this with h | h
      · linarith
      · exact absurd h hy
    · exact absurd h0 (pow_ne_zero 2 hy)
  rw [hnum', hp, hm, hd']
  congr 2
  field_simp
  ring

/-- **C23** does not hold for `a % b` with respect to `b` near a point where `a // b` changes: there are
points where the derivative exists, and where the value that the code uses is another one. -/
theorem C23_mod_fails : ∃ x y d : ℝ, IsPartial (BinOp.method .mod) [x, y] 1 d ∧
    BinOp.deriv1 .mod (fin x) (fin y) ≠ .ok (fin d) := by
  set S := stepConst with hS
  have hS0 : 0 < S := stepConst_pos
  have hS1 : S ≤ 1 / 2 := by rw [hS, stepConst_eq]; norm_num
  set y := 1 + S / 2 with hy
  have hy1 : 1 < y := by linarith
  have hy0 : y ≠ 0 := by linarith
  have hval : ∀ {t : ℝ}, t ≠ 0 → BinOp.method .mod [.flt (fin 1), .flt (fin t)] [] =
      .ok (.flt (fin (1 - t * ⌊1 / t⌋))) := by
    intro t ht
    simp [BinOp.method, BinOp.onFloats, PyOps.mod, ht, Except.map]
  have hfl : ∀ {t : ℝ}, 1 < t → ⌊1 / t⌋ = 0 := by
    intro t ht
    rw [Int.floor_eq_iff]
    constructor
    · simp; linarith
    · rw [div_lt_iff₀ (by linarith)]; simpa using ht
  refine ⟨1, y, 0, ⟨fun _ => 1, ?_, hasDerivAt_const _ _⟩, ?_⟩
  · change ∀ᶠ t in 𝓝 y, _
    filter_upwards [eventually_gt_nhds hy1] with t ht
    have := hval (t := t) (by linarith)
    rw [hfl ht] at this
    simpa [flts] using this
  · have hstep : stepReal y = S * y := by
      rw [stepReal, if_neg hy0, abs_of_pos (by linarith)]
    have hm0 : 0 < y - S * y := by nlinarith
    have hm1 : y - S * y < 1 := by nlinarith
    have hflm : ⌊1 / (y - S * y)⌋ = 1 := by
      rw [Int.floor_eq_iff]
      constructor
      · rw [le_div_iff₀ hm0]; push_cast; linarith
      · rw [div_lt_iff₀ hm0]; push_cast; nlinarith
    have hnum := partialDerivative_real (f := BinOp.method .mod) (xs := [1, y]) (i := 1) (by simp) (kw := [])
      (gp := 1 - (y + S * y) * ⌊1 / (y + S * y)⌋) (gm := 1 - (y - S * y) * ⌊1 / (y - S * y)⌋)
      (by simpa [flts, hstep] using hval (t := y + S * y) (by nlinarith))
      (by simpa [flts, hstep] using hval (t := y - S * y) hm0.ne')
    have hnum' : BinOp.deriv1 .mod (fin 1) (fin y) = .ok (fin ((y - S * y) / 2 / (S * y))) := by
      rw [hflm, hfl (by nlinarith : 1 < y + S * y)] at hnum
      simp only [Int.cast_zero, mul_zero, sub_zero, Int.cast_one, mul_one, sub_sub_cancel] at hnum
      simpa [BinOp.deriv1, flts, hstep] using hnum
    rw [hnum']
    intro h
    injection h with h
    injection h with h
    have : 0 < (y - S * y) / 2 / (S * y) := by positivity
    linarith


/-- `2 / x` with `x = 3±2`: the derivative is -2/9. -/
example : Results exCs (.binop .truediv (.const (.flt (fin 2))) (.ref 0))
    (.ok (.flt (fin (2 / 3)), some (Lin.comb [(fin (-2 / 9), Lin.single 0)]))) := by
  refine C23_binop_partial (d0 := 0) (A := none) (B := some (Lin.single 0)) (x := 2) (y := 3)
    ⟨?_, ?_⟩ ⟨ex_x.nominal, ex_x.derivatives⟩ (by simp) (by simp) ?_ (by simp) ?_
  · rw [(ex_reaches.read rfl).1]; rfl
  · change sees exCs (.derivatives (.const (.flt (fin 2)))) = .invalid
    rw [(ex_reaches.read rfl).1]; rfl
  · simp [flts, BinOp.method, BinOp.onFloats, PyFloat.truediv, Except.map]
  · intro _
    refine ⟨fun t => 2 / t, ?_, ?_⟩
    · change ∀ᶠ t in 𝓝 (3:ℝ), _
      filter_upwards [eventually_ne_nhds (by norm_num : (3:ℝ) ≠ 0)] with t ht
      simp [flts, BinOp.method, BinOp.onFloats, PyFloat.truediv, Except.map, ht]
    · have := (hasDerivAt_const (3:ℝ) (2:ℝ)).div (hasDerivAt_id (3:ℝ)) (by norm_num)
      have e : (0 * _root_.id (3:ℝ) - 2 * 1) / _root_.id (3:ℝ) ^ 2 = -2 / 9 := by
        simp only [_root_.id]; norm_num
      rw [e] at this
      exact this

/-! ### C26: operations succeed -/

theorem derivStep_ne (y : ℝ) (hy : y ≠ 0) : y + stepReal y ≠ 0 ∧ y - stepReal y ≠ 0 := by
  have hpos := stepReal_pos y
  have hlt : stepReal y < |y| := by
    rw [stepReal, if_neg hy]
    have := mul_lt_mul_of_pos_right stepConst_lt_one (abs_pos.mpr hy)
    simpa using this
  constructor
  · intro h0
    have : y = -stepReal y := by linarith
    have e : |y| = |-stepReal y| := congrArg _ this
    rw [e, abs_neg, abs_of_pos hpos] at hlt
    exact lt_irrefl _ hlt
  · intro h0
    have : y = stepReal y := by linarith
    rw [abs_of_pos (this ▸ hpos)] at hlt
    exact absurd this hlt.ne'

/-- In exact arithmetic with NaN, the derivatives never raise an exception where the operation
succeeds. -/
theorem deriv_ok {op : BinOp} {x y z : NR} (h : op.onFloats x y = .ok (.flt z)) :
    (∃ c, op.deriv0 x y = .ok c) ∧ (∃ c, op.deriv1 x y = .ok c) := by
  cases op with
  | add => exact ⟨⟨_, rfl⟩, ⟨_, rfl⟩⟩
  | sub => exact ⟨⟨_, rfl⟩, ⟨_, rfl⟩⟩
  | mul => exact ⟨⟨_, rfl⟩, ⟨_, rfl⟩⟩
  | floordiv => exact ⟨⟨_, rfl⟩, ⟨_, rfl⟩⟩
  | truediv =>
    cases y with
    | nan =>
      refine ⟨⟨nan, rfl⟩, ⟨nan, ?_⟩⟩
      cases x <;> rfl
    | fin y =>
      have hy : y ≠ 0 := by
        rintro rfl
        cases x <;> simp [BinOp.onFloats, PyFloat.truediv, Except.map] at h
      refine ⟨⟨_, by simp [BinOp.deriv0, PyFloat.truediv, hy]; rfl⟩, ?_⟩
      cases x with
      | nan => exact ⟨nan, by simp [BinOp.deriv1, PyFloat.sq, PyFloat.truediv, hy, lift2]⟩
      | fin x => exact ⟨_, by simp [BinOp.deriv1, PyFloat.sq, PyFloat.truediv, hy, lift2]; rfl⟩
  | mod =>
    refine ⟨⟨_, rfl⟩, ?_⟩
    cases y with
    | nan =>
      refine ⟨nan, ?_⟩
      have hs : derivStep (nan : NR) = nan := rfl
      have e1 : BinOp.method .mod [.flt x, .flt nan] [] = .ok (.flt nan) := by cases x <;> rfl
      have es : ([.flt x, .flt nan] : List (PyVal NR))[1]? = some (.flt nan) := rfl
      simp only [BinOp.deriv1, partialDerivative, es, hs, List.set_cons_succ, List.set_cons_zero,
        nan_add, nan_sub, e1]
      have : PyFloat.truediv nan (PyFloat.two : NR) = .ok nan := by
        simp [PyFloat.truediv, PyFloat.two]
      simp only [centralDiff, nan_sub, this]
      rfl
    | fin y =>
      have hy : y ≠ 0 := by
        rintro rfl
        cases x <;> simp [BinOp.onFloats, PyOps.mod, Except.map] at h
      obtain ⟨hp, hm⟩ := derivStep_ne y hy
      cases x with
      | nan =>
        refine ⟨nan, ?_⟩
        have e1 : BinOp.method .mod [.flt nan, .flt (fin (y + stepReal y))] [] = .ok (.flt nan) := by
          simp [BinOp.method, BinOp.onFloats, PyOps.mod, hp, Except.map]
        have e2 : BinOp.method .mod [.flt nan, .flt (fin (y - stepReal y))] [] = .ok (.flt nan) := by
          simp [BinOp.method, BinOp.onFloats, PyOps.mod, hm, Except.map]
        have es : ([.flt nan, .flt (fin y)] : List (PyVal NR))[1]? = some (.flt (fin y)) := rfl
        simp only [BinOp.deriv1, partialDerivative, es, derivStep_real, List.set_cons_succ,
          List.set_cons_zero, minus_step]
        rw [fin_add, e1, e2]
        have : PyFloat.truediv (nan - nan) (PyFloat.two : NR) = .ok nan := by
          simp [PyFloat.truediv, PyFloat.two]
        simp only [centralDiff, this]
        simp [PyFloat.truediv, (stepReal_pos y).ne']
      | fin x =>
        have hval : ∀ {t : ℝ}, t ≠ 0 → BinOp.method .mod [.flt (fin x), .flt (fin t)] [] =
            .ok (.flt (fin (x - t * ⌊x / t⌋))) := by
          intro t ht
          simp [BinOp.method, BinOp.onFloats, PyOps.mod, ht, Except.map]
        exact ⟨_, partialDerivative_real (f := BinOp.method .mod) (xs := [x, y]) (i := 1) (by simp)
          (kw := []) (hval hp) (hval hm)⟩
  | pow =>
    have real : ∀ {x y : ℝ}, powReal x y = .ok (.real z) → ∃ w, powReal x y = .ok (.real (fin w)) := by
      intro x y h
      unfold powReal at h ⊢
      split at h <;> rename_i c1
      · exact ⟨_, by rw [if_pos c1]⟩
      split at h <;> rename_i c2
      · split at h <;> rename_i c3
        · cases h
        · exact ⟨_, by rw [if_neg c1, if_pos c2, if_neg c3]⟩
      split at h <;> rename_i c3
      · exact ⟨_, by rw [if_neg c1, if_neg c2, if_pos c3]⟩
      split at h <;> rename_i c4
      · exact ⟨_, by rw [if_neg c1, if_neg c2, if_neg c3, if_pos c4]⟩
      · cases h
    cases x with
    | fin x =>
      cases y with
      | fin y =>
        have h' : powReal x y = .ok (.real z) := by
          simp only [BinOp.onFloats, PyOps.pow] at h
          split at h
          · cases h
          · rename_i w hw; cases h; exact hw
          · cases h
        obtain ⟨w, hw⟩ := real h'
        constructor
        · rcases pow_deriv0_value hw with ⟨_, d, -, -, e⟩ | ⟨-, e⟩
          · exact ⟨_, e⟩
          · exact ⟨_, e⟩
        · rcases pow_deriv1_value hw with ⟨_, d, -, -, e⟩ | ⟨-, e⟩
          · exact ⟨_, e⟩
          · exact ⟨_, e⟩
      | nan =>
        constructor
        · by_cases hx : x = 0
          · exact ⟨nan, by
              simp [BinOp.deriv0, powDeriv0, PyFloat.eqb, hx, PyOps.mod, nanIfException, PyFloat.nan]⟩
          · by_cases hx1 : x = 1
            · exact ⟨nan, by simp [BinOp.deriv0, powDeriv0, PyFloat.eqb, hx1, PyOps.pow, nanIfException]⟩
            · exact ⟨nan, by
                simp [BinOp.deriv0, powDeriv0, PyFloat.eqb, hx, hx1, PyOps.pow, nanIfException]⟩
        · by_cases hx : x ≤ 0
          · exact ⟨nan, by
              simp [BinOp.deriv1, powDeriv1, PyFloat.ltb, PyOps.log, hx, nanIfException, PyFloat.nan]⟩
          · by_cases hx1 : x = 1
            · exact ⟨fin 0, by
                simp [BinOp.deriv1, powDeriv1, PyFloat.ltb, PyOps.log, hx1, PyOps.pow, nanIfException,
                  not_le.mpr one_pos]⟩
            · exact ⟨nan, by
                simp [BinOp.deriv1, powDeriv1, PyFloat.ltb, PyOps.log, hx, hx1, PyOps.pow, nanIfException]⟩
    | nan =>
      cases y with
      | fin y =>
        constructor
        · by_cases hy : y = 0
          · exact ⟨fin 0, by simp [BinOp.deriv0, powDeriv0, PyFloat.eqb, hy, nanIfException]⟩
          · by_cases hy1 : y - 1 = 0
            · exact ⟨fin (y * 1), by
                simp [BinOp.deriv0, powDeriv0, PyFloat.eqb, hy, PyOps.pow, nanIfException, hy1]⟩
            · exact ⟨nan, by
                simp [BinOp.deriv0, powDeriv0, PyFloat.eqb, hy, PyOps.pow, nanIfException, hy1]⟩
        · by_cases hy : y = 0
          · exact ⟨nan, by
              simp [BinOp.deriv1, powDeriv1, PyFloat.eqb, PyOps.log, hy, PyOps.pow, nanIfException]⟩
          · exact ⟨nan, by
              simp [BinOp.deriv1, powDeriv1, PyFloat.eqb, PyOps.log, hy, PyOps.pow, nanIfException]⟩
      | nan =>
        exact ⟨⟨nan, by simp [BinOp.deriv0, powDeriv0, PyFloat.eqb, PyOps.pow, nanIfException]⟩,
          ⟨nan, by simp [BinOp.deriv1, powDeriv1, PyFloat.eqb, PyOps.log, PyOps.pow, nanIfException]⟩⟩

/-- **C26** (partial: in exact arithmetic, with NaN): `a / b`, and all the other operations, succeed
whenever the operation on the nominal values succeeds. See `C26_division_fails` for what is missing. -/
theorem C26_exact_partial {cs : List (Cmd NR)} {op : BinOp} {a b : Arg NR} {x y z : NR}
    {A B : Option (Lin NR)} (ha : SeenAs cs a (.flt x, A)) (hb : SeenAs cs b (.flt y, B))
    (hu : A ≠ none ∨ B ≠ none) (hz : op.onFloats x y = .ok (.flt z)) :
    sees cs (.binop op a b) = .done ∧ sees (cs ++ [.binop op a b]) (.nominal (next cs)) = .val (.flt z) := by
  obtain ⟨⟨c0, h0⟩, ⟨c1, h1⟩⟩ := deriv_ok hz
  have := binop_results ha hb hu hz (fun _ => h0) (fun _ => h1)
  exact ⟨this.1, this.2.1⟩

/-- The hypotheses of `C26_exact_partial`: `2/x` with `x = 3±2`. -/
example : sees exCs (.binop .truediv (.const (.flt (fin 2))) (.ref 0)) = .done := by
  refine (C26_exact_partial (x := fin 2) (y := fin 3) (z := fin (2 / 3)) (A := none) (B := some (Lin.single 0))
    ⟨?_, ?_⟩ ⟨ex_x.nominal, ex_x.derivatives⟩ (by simp) (by simp [BinOp.onFloats, PyFloat.truediv, Except.map])).1
  · rw [(ex_reaches.read rfl).1]; rfl
  · change sees exCs (.derivatives (.const (.flt (fin 2)))) = .invalid
    rw [(ex_reaches.read rfl).1]; rfl

end Unc
