import Verif.Lemmas.Arrays
import Verif.Lemmas.Replay
import Verif.Props.C23_Operators

/-
Matrices of real numbers, and of numbers with uncertainties: lemmas.
-/

namespace Unc

set_option autoImplicit false

open NR Matrix

/-! ### Matrices of floats -/

variable {m n k : ℕ}

theorem rows_eq (M : Matrix (Fin m) (Fin n) ℝ) : rows M = arr fun i j => fin (M i j) := rfl

theorem npNeg_rows (M : Matrix (Fin m) (Fin n) ℝ) : npNeg (rows M) = rows (-M) := by
  unfold npNeg
  rw [rows_eq, map_arr]; rfl

theorem npScale_rows (M : Matrix (Fin m) (Fin n) ℝ) (c : ℝ) : npScale (rows M) (fin c) = rows fun i j => M i j * c := by
  unfold npScale
  rw [rows_eq, map_arr]; rfl

theorem zipWith_ofFn {α β γ : Type} (f : α → β → γ) (a : Fin n → α) (b : Fin n → β) :
    List.zipWith f (List.ofFn a) (List.ofFn b) = List.ofFn fun i => f (a i) (b i) := by
  apply List.ext_getElem <;> simp

theorem npMap2_rows {f : NR → NR → NR} {g : ℝ → ℝ → ℝ} (h : ∀ x y, f (fin x) (fin y) = fin (g x y))
    (A B : Matrix (Fin m) (Fin n) ℝ) : npMap2 f (rows A) (rows B) = rows fun i j => g (A i j) (B i j) := by
  unfold npMap2 rows
  rw [zipWith_ofFn]
  simp only [zipWith_ofFn, h]

theorem npT_rows (A : Matrix (Fin m) (Fin n) ℝ) (hm : m = 0 → n = 0) : npT (rows A) = rows Aᵀ := by
  have hh : ((rows A).headD []).length = n := by
    cases m with
    | zero => simpa [rows] using (hm rfl).symm
    | succ m => simp [rows, List.ofFn_succ]
  unfold npT
  rw [hh, range_ofFn]
  simp [rows, List.map_ofFn, Function.comp_def]

theorem foldl_fin (c : ℝ) (f : Fin n → ℝ) :
    (List.ofFn fun i => fin (f i)).foldl (· + ·) (fin c) = fin (c + ∑ i, f i) := by
  induction n generalizing c with
  | zero => simp
  | succ n ih =>
    rw [List.ofFn_succ, List.foldl_cons, fin_add, ih, Fin.sum_univ_succ, add_assoc]

theorem npInner_fin (a b : Fin n → ℝ) :
    npInner (List.ofFn fun i => fin (a i)) (List.ofFn fun i => fin (b i)) = fin (∑ i, a i * b i) := by
  unfold npInner
  rw [zipWith_ofFn]
  simp only [fin_mul]
  exact (foldl_fin 0 _).trans (by rw [zero_add])

theorem npDot_rows (A : Matrix (Fin m) (Fin k) ℝ) (B : Matrix (Fin k) (Fin n) ℝ) (hk : k = 0 → n = 0) :
    npDot (rows A) (rows B) = rows (A * B) := by
  unfold npDot
  rw [npT_rows B hk]
  simp only [rows, List.map_ofFn, Function.comp_def, npInner_fin]
  rfl

theorem npEye_rows : npEye n = rows (1 : Matrix (Fin n) (Fin n) ℝ) := by
  unfold npEye
  rw [range_ofFn]
  simp only [range_ofFn, rows, Matrix.one_apply]
  congr 1; funext i; congr 1; funext j
  by_cases h : i = j
  · subst h; simp
  · have h' : ¬ i.val = j.val := fun e => h (Fin.ext e)
    simp [h, h']

/-! ### Functions of arrays -/

variable {p q : ℕ}

theorem HasDeriv.getD {S : Option (Lin NR)} {v : VarId} {d : ℝ} (h : HasDeriv S v d) :
    (gradOf S v).getD 0 = fin d := by
  rcases h with h | ⟨h, rfl⟩ <;> rw [h] <;> rfl

theorem HasDeriv.of_none {S : Option (Lin NR)} {v : VarId} {d : ℝ} (h : HasDeriv S v d) (hn : gradOf S v = none) :
    d = 0 := by
  rcases h with h | ⟨-, h⟩
  · rw [hn] at h; cases h
  · exact h

theorem truthy_fin (x : ℝ) : PyFloat.truthy (fin x) = true ↔ x ≠ 0 := by
  simp [PyFloat.truthy, PyFloat.eqb]

theorem resultGrad_deriv {S : Fin p → Fin q → Option (Lin NR)} {dV : VarId → ℝ}
    (h0 : ∀ v, ¬ DependsOn S v → dV v = 0) (v : VarId) :
    HasDeriv (resultGrad S fun v => fin (dV v)) v (dV v) := by
  unfold resultGrad
  by_cases h : ∃ v, DependsOn S v
  · rw [if_pos h]
    simp only [HasDeriv, gradOf, Option.bind_some]
    by_cases h1 : DependsOn S v ∧ PyFloat.truthy (fin (dV v)) = true
    · left; rw [if_pos h1]
    · right
      rw [if_neg h1]
      refine ⟨rfl, ?_⟩
      by_contra hne
      exact h1 ⟨by by_contra h2; exact hne (h0 v h2), (truthy_fin _).mpr hne⟩
  · rw [if_neg h]
    exact Or.inr ⟨rfl, h0 v (fun hv => h ⟨v, hv⟩)⟩

/-- A function of an array, and its derivatives. -/
theorem arrayFunc_real {cs : List (Cmd NR)} {s : SState NR} (hs : Reaches cs s) {A : Fin p → Fin q → Arg NR} {N : Matrix (Fin p) (Fin q) ℝ}
    {S : Fin p → Fin q → Option (Lin NR)} {dA : VarId → Matrix (Fin p) (Fin q) ℝ}
    (hA : ∀ i j, SeenAs cs (A i j) (.flt (fin (N i j)), S i j)) (hS : ∀ i j v, HasDeriv (S i j) v (dA v i j))
    {ord : List VarId → List VarId} (hord : ∀ l, (ord l).Perm l)
    {func : DerivArrayFn NR} {V : Matrix (Fin m) (Fin n) ℝ} {dV : VarId → Matrix (Fin m) (Fin n) ℝ}
    {deriv : VarId → List (List NR) → PyRes (List (List NR))}
    (hf : func (rows N) = .ok (rows V, deriv))
    (hd : ∀ v, DependsOn S v → deriv v (rows (dA v)) = .ok (rows (dV v)))
    (h0 : ∀ v, dA v = 0 → dV v = 0) :
    ∃ (cmds : List (Cmd NR)) (x : Fin m → Fin n → Arg NR) (l : List (Option (SVal NR))),
      arrayFunc ord func (after cs) (arr A) = .ok (cmds, arr x) ∧
      (∀ i j, SeenAs (cs ++ cmds) (x i j) (.flt (fin (V i j)), resultGrad S fun v => fin (dV v i j))) ∧
      IsArray (cs ++ cmds) x V dV ∧ Reaches (cs ++ cmds) { s with env := s.env ++ l } ∧ (∀ i j, SeenAs (cs ++ cmds) (A i j) (.flt (fin (N i j)), S i j)) := by
  obtain ⟨cmds, x, l, h1, h2, h3⟩ := arrayFunc_main hs hA hord (V := fun i j => fin (V i j))
    (dV := fun v i j => fin (dV v i j)) hf (by
      intro v hv
      rw [← rows_eq, ← hd v hv]
      congr 1
      rw [rows_eq]
      congr 1; funext i j
      exact (hS i j v).getD)
  have hx : ∀ i j, SeenAs (cs ++ cmds) (x i j) (.flt (fin (V i j)), resultGrad S fun v => fin (dV v i j)) := by
    intro i j
    obtain ⟨r, e1, e2⟩ := h3 i j
    rw [← e2]
    exact h2.seenAs e1
  refine ⟨cmds, x, l, h1, hx, fun i j => ⟨_, hx i j, fun v => ?_⟩, h2, ?_⟩
  · refine resultGrad_deriv (dV := fun v => dV v i j) (fun v hv => ?_) v
    rw [h0 v]; · rfl
    funext i j
    refine (hS i j v).of_none ?_
    by_contra h
    exact hv ⟨i, j, h⟩
  · intro i j
    obtain ⟨r, e1, e2⟩ := hs.seen (hA i j)
    rw [← e2]
    exact h2.seenAs (seval_append e1)

/-! ### Product -/

variable {K : VarId → Prop}

/-- An element with a nominal value, derivatives, and variables in some set. -/
def ElHas (K : VarId → Prop) (env : List (Option (SVal NR))) (e : El NR) (x : ℝ) (d : VarId → ℝ) : Prop :=
  match e with
  | .num y => y = fin x ∧ ∀ v, d v = 0
  | .qty a => ∃ Q : SQ NR, a.seval env = some (.unc Q) ∧ Q.nom = fin x ∧
      ∀ v, HasCoef Q.grad v (d v) ∧ (Q.grad v ≠ none → K v)

theorem ElHas.append {env l : List (Option (SVal NR))} {e : El NR} {x : ℝ} {d : VarId → ℝ}
    (h : ElHas K env e x d) : ElHas K (env ++ l) e x d := by
  cases e with
  | num y => exact h
  | qty a =>
    obtain ⟨Q, h1, h2⟩ := h
    exact ⟨Q, seval_append h1, h2⟩

theorem ElHas.congr {env : List (Option (SVal NR))} {e : El NR} {x y : ℝ} {d d' : VarId → ℝ}
    (h : ElHas K env e x d) (hx : x = y) (hd : ∀ v, d v = d' v) : ElHas K env e y d' := by
  obtain rfl : d = d' := funext hd
  rw [← hx]; exact h

theorem hasCoef_two {A B : Lin NR} {v : VarId} {a b c d : ℝ} (hA : HasCoef A v a) (hB : HasCoef B v b) :
    HasCoef (Lin.comb [(fin c, A), (fin d, B)]) v (c * a + d * b) := by
  have := (hA.smul c).add ((hB.smul d).add (HasCoef.zero v))
  simpa [Lin.comb] using this

theorem hasCoef_one {A : Lin NR} {v : VarId} {a c : ℝ} (hA : HasCoef A v a) :
    HasCoef (Lin.comb [(fin c, A)]) v (c * a) := by
  have := (hA.smul c).add (HasCoef.zero v)
  simpa [Lin.comb] using this

theorem comb_keys_one {A : Lin NR} {v : VarId} {c : NR} (h : Lin.comb [(c, A)] v ≠ none) : A v ≠ none := by
  intro hA
  exact h (by simp [Lin.comb, Lin.add, Lin.smul, Lin.zero, hA, optAdd])

theorem comb_keys_two {A B : Lin NR} {v : VarId} {c d : NR} (h : Lin.comb [(c, A), (d, B)] v ≠ none) :
    A v ≠ none ∨ B v ≠ none := by
  by_contra hn
  rw [not_or, not_not, not_not] at hn
  exact h (by simp [Lin.comb, Lin.add, Lin.smul, Lin.zero, hn.1, hn.2, optAdd])

/-- The commands of a calculation extend the state with one value per command. -/
def Builds (cs : List (Cmd NR)) (s : SState NR) (cmds : List (Cmd NR)) (l : List (Option (SVal NR))) : Prop :=
  Reaches (cs ++ cmds) { s with env := s.env ++ l } ∧ l.length = cmds.length

theorem Builds.nil {cs : List (Cmd NR)} {s : SState NR} (hs : Reaches cs s) : Builds cs s [] [] :=
  ⟨by simpa using hs, rfl⟩

theorem Builds.append {cs : List (Cmd NR)} {s : SState NR} {c1 c2 : List (Cmd NR)} {l1 l2 : List (Option (SVal NR))}
    (h1 : Builds cs s c1 l1) (h2 : Builds (cs ++ c1) { s with env := s.env ++ l1 } c2 l2) :
    Builds cs s (c1 ++ c2) (l1 ++ l2) := by
  refine ⟨?_, by simp [h1.2, h2.2]⟩
  have := h2.1
  simpa only [List.append_assoc] using this

theorem seval_last {env : List (Option (SVal NR))} {r : SVal NR} :
    (Arg.ref env.length).seval (env ++ [some r]) = some r := by simp [Arg.seval]

/-- An operation, in general. -/
theorem binop_builds {cs : List (Cmd NR)} {s : SState NR} (hs : Reaches cs s) {op : BinOp} {a b : El NR}
    {x y z c d : ℝ} {dx dy : VarId → ℝ} (ha : ElHas K s.env a x dx) (hb : ElHas K s.env b y dy)
    (hz : op.onFloats (fin x) (fin y) = .ok (.flt (fin z)))
    (h0 : op.deriv0 (fin x) (fin y) = .ok (fin c)) (h1 : op.deriv1 (fin x) (fin y) = .ok (fin d))
    (hu : ∀ u w, ¬ (a = .num u ∧ b = .num w)) :
    ∃ l, Builds cs s [.binop op a.toArg b.toArg] l ∧
      ElHas K (s.env ++ l) (.qty (.ref s.env.length)) z (fun v => c * dx v + d * dy v) := by
  cases a with
  | num u =>
    cases b with
    | num w => exact absurd ⟨rfl, rfl⟩ (hu u w)
    | qty B =>
      obtain ⟨rfl, ha⟩ := ha
      obtain ⟨Q, b1, b2, b3⟩ := hb
      rw [← b2] at hz h1
      obtain ⟨-, h2⟩ := hs.binop (op := op) (x := .const (.flt (fin x))) (y := B) rfl b1
        (specBinop_flt_unc hz h1) rfl
      refine ⟨_, ⟨h2, rfl⟩, _, seval_last, rfl, fun v => ?_⟩
      beta_reduce
      rw [ha v, mul_zero, zero_add]
      exact ⟨hasCoef_one (b3 v).1, fun h => (b3 v).2 (comb_keys_one h)⟩
  | qty A =>
    obtain ⟨P, a1, a2, a3⟩ := ha
    cases b with
    | num w =>
      obtain ⟨rfl, hb⟩ := hb
      rw [← a2] at hz h0
      obtain ⟨-, h2⟩ := hs.binop (op := op) (x := A) (y := .const (.flt (fin y))) a1 rfl
        (specBinop_unc_flt hz h0) rfl
      refine ⟨_, ⟨h2, rfl⟩, _, seval_last, rfl, fun v => ?_⟩
      beta_reduce
      rw [hb v, mul_zero, add_zero]
      exact ⟨hasCoef_one (a3 v).1, fun h => (a3 v).2 (comb_keys_one h)⟩
    | qty B =>
      obtain ⟨Q, b1, b2, b3⟩ := hb
      rw [← a2, ← b2] at hz h0 h1
      obtain ⟨-, h2⟩ := hs.binop (op := op) a1 b1 (specBinop_unc_unc hz h0 h1) rfl
      exact ⟨_, ⟨h2, rfl⟩, _, seval_last, rfl, fun v => ⟨hasCoef_two (a3 v).1 (b3 v).1,
        fun h => (comb_keys_two h).elim (a3 v).2 (b3 v).2⟩⟩

theorem mul_builds {cs : List (Cmd NR)} {s : SState NR} (hs : Reaches cs s) {a b : El NR} {x y : ℝ}
    {dx dy : VarId → ℝ} (ha : ElHas K s.env a x dx) (hb : ElHas K s.env b y dy) :
    ∃ l, Builds cs s (a.mul s.env.length b).1 l ∧
      ElHas K (s.env ++ l) (a.mul s.env.length b).2 (x * y) (fun v => y * dx v + x * dy v) := by
  have key := fun hu => binop_builds (op := .mul) (z := x * y) (c := y) (d := x) hs ha hb rfl rfl rfl hu
  cases a with
  | num u =>
    cases b with
    | num w =>
      obtain ⟨rfl, ha⟩ := ha
      obtain ⟨rfl, hb⟩ := hb
      exact ⟨[], Builds.nil hs, rfl, fun v => by simp [ha v, hb v]⟩
    | qty B => exact key (by simp)
  | qty A => cases b <;> exact key (by simp)

theorem add_builds {cs : List (Cmd NR)} {s : SState NR} (hs : Reaches cs s) {a b : El NR} {x y : ℝ}
    {dx dy : VarId → ℝ} (ha : ElHas K s.env a x dx) (hb : ElHas K s.env b y dy) :
    ∃ l, Builds cs s (a.add s.env.length b).1 l ∧
      ElHas K (s.env ++ l) (a.add s.env.length b).2 (x + y) (fun v => dx v + dy v) := by
  have key := fun hu => binop_builds (op := .add) (z := x + y) (c := 1) (d := 1) hs ha hb rfl rfl rfl hu
  simp only [one_mul] at key
  cases a with
  | num u =>
    cases b with
    | num w =>
      obtain ⟨rfl, ha⟩ := ha
      obtain ⟨rfl, hb⟩ := hb
      exact ⟨[], Builds.nil hs, rfl, fun v => by simp [ha v, hb v]⟩
    | qty B => exact key (by simp)
  | qty A => cases b <;> exact key (by simp)

theorem dotLoop_builds {cs : List (Cmd NR)} {s : SState NR} (hs : Reaches cs s) {acc : El NR} {x0 : ℝ}
    {d0 : VarId → ℝ} (h0 : ElHas K s.env acc x0 d0) {a b : Fin k → El NR} {x y : Fin k → ℝ}
    {dx dy : Fin k → VarId → ℝ} (ha : ∀ i, ElHas K s.env (a i) (x i) (dx i)) (hb : ∀ i, ElHas K s.env (b i) (y i) (dy i)) :
    ∃ l, Builds cs s (dotLoop s.env.length acc (List.ofFn fun i => (a i, b i))).1 l ∧
      ElHas K (s.env ++ l) (dotLoop s.env.length acc (List.ofFn fun i => (a i, b i))).2
        (x0 + ∑ i, x i * y i) (fun v => d0 v + ∑ i, (y i * dx i v + x i * dy i v)) := by
  induction k generalizing cs s acc x0 d0 with
  | zero => exact ⟨[], by simpa [dotLoop] using Builds.nil hs, by simpa [dotLoop] using h0⟩
  | succ k ih =>
    rw [List.ofFn_succ]
    simp only [dotLoop]
    obtain ⟨l1, b1, e1⟩ := mul_builds hs (ha 0) (hb 0)
    obtain ⟨l2, b2, e2⟩ := add_builds b1.1 (h0.append (l := l1)) e1
    have hlen : s.env.length + ((a 0).mul s.env.length (b 0)).1.length = (s.env ++ l1).length := by
      simp [b1.2]
    simp only at b2 e2
    rw [hlen]
    have b12 := b1.append b2
    have hlen2 : (s.env ++ l1).length + (acc.add (s.env ++ l1).length ((a 0).mul s.env.length (b 0)).2).1.length =
        (s.env ++ l1 ++ l2).length := by rw [List.length_append (bs := l2), b2.2]
    rw [hlen2]
    obtain ⟨l3, b3, e3⟩ := ih (cs := (cs ++ ((a 0).mul s.env.length (b 0)).1) ++
        (acc.add (s.env ++ l1).length ((a 0).mul s.env.length (b 0)).2).1)
      (s := { s with env := s.env ++ l1 ++ l2 }) b2.1 e2
      (fun i => ((ha i.succ).append (l := l1)).append (l := l2))
      (fun i => ((hb i.succ).append (l := l1)).append (l := l2))
    refine ⟨l1 ++ l2 ++ l3, ?_, ?_⟩
    · refine Builds.append b12 ?_
      simpa only [List.append_assoc] using b3
    · simp only [List.append_assoc] at e3 ⊢
      refine e3.congr ?_ ?_
      · rw [Fin.sum_univ_succ]; ring
      · intro v; rw [Fin.sum_univ_succ]; ring

theorem elDot_builds {cs : List (Cmd NR)} {s : SState NR} (hs : Reaches cs s) {a b : Fin k → El NR} {x y : Fin k → ℝ}
    {dx dy : Fin k → VarId → ℝ} (ha : ∀ i, ElHas K s.env (a i) (x i) (dx i)) (hb : ∀ i, ElHas K s.env (b i) (y i) (dy i)) :
    ∃ l, Builds cs s (elDot s.env.length (List.ofFn fun i => (a i, b i))).1 l ∧
      ElHas K (s.env ++ l) (elDot s.env.length (List.ofFn fun i => (a i, b i))).2
        (∑ i, x i * y i) (fun v => ∑ i, (y i * dx i v + x i * dy i v)) := by
  cases k with
  | zero => exact ⟨[], by simpa [elDot] using Builds.nil hs, by simp [elDot, ElHas]⟩
  | succ k =>
    rw [List.ofFn_succ]
    simp only [elDot]
    obtain ⟨l1, b1, e1⟩ := mul_builds hs (ha 0) (hb 0)
    have hlen : s.env.length + ((a 0).mul s.env.length (b 0)).1.length = (s.env ++ l1).length := by
      simp [b1.2]
    rw [hlen]
    obtain ⟨l2, b2, e2⟩ := dotLoop_builds b1.1 e1 (fun i => (ha i.succ).append (l := l1))
      (fun i => (hb i.succ).append (l := l1))
    refine ⟨l1 ++ l2, b1.append b2, ?_⟩
    rw [← List.append_assoc]
    refine e2.congr ?_ ?_
    · rw [Fin.sum_univ_succ]
    · intro v; rw [Fin.sum_univ_succ]

theorem dotRow_builds {cs : List (Cmd NR)} {s : SState NR} (hs : Reaches cs s) {a : Fin k → El NR}
    {b : Fin n → Fin k → El NR} {x : Fin k → ℝ} {y : Fin n → Fin k → ℝ}
    {dx : Fin k → VarId → ℝ} {dy : Fin n → Fin k → VarId → ℝ}
    (ha : ∀ i, ElHas K s.env (a i) (x i) (dx i)) (hb : ∀ j i, ElHas K s.env (b j i) (y j i) (dy j i)) :
    ∃ (l : List (Option (SVal NR))) (r : Fin n → El NR),
      (dotRow s.env.length (List.ofFn a) (List.ofFn fun j => List.ofFn (b j))).2 = List.ofFn r ∧
      Builds cs s (dotRow s.env.length (List.ofFn a) (List.ofFn fun j => List.ofFn (b j))).1 l ∧
      ∀ j, ElHas K (s.env ++ l) (r j) (∑ i, x i * y j i) (fun v => ∑ i, (y j i * dx i v + x i * dy j i v)) := by
  induction n generalizing cs s with
  | zero => exact ⟨[], fun j => j.elim0, by simp [dotRow], by simpa [dotRow] using Builds.nil hs, fun j => j.elim0⟩
  | succ n ih =>
    rw [List.ofFn_succ]
    simp only [dotRow, zip_ofFn]
    obtain ⟨l1, b1, e1⟩ := elDot_builds hs ha (hb 0)
    have hlen : s.env.length + (elDot s.env.length (List.ofFn fun i => (a i, b 0 i))).1.length =
      (s.env ++ l1).length := by simp [b1.2]
    rw [hlen]
    obtain ⟨l2, r, h2, b2, e2⟩ := ih b1.1 (fun i => (ha i).append (l := l1)) (b := fun j => b j.succ)
      (y := fun j => y j.succ) (dy := fun j => dy j.succ) (fun j i => (hb j.succ i).append (l := l1))
    refine ⟨l1 ++ l2, Fin.cons (elDot s.env.length (List.ofFn fun i => (a i, b 0 i))).2 r, ?_, b1.append b2, ?_⟩
    · rw [List.ofFn_succ, Fin.cons_zero]
      simp only [Fin.cons_succ]
      rw [← h2]
    · intro j
      rw [← List.append_assoc]
      refine Fin.cases ?_ (fun j => ?_) j
      · rw [Fin.cons_zero]; exact e1.append
      · rw [Fin.cons_succ]; exact e2 j

theorem dotRows_builds {cs : List (Cmd NR)} {s : SState NR} (hs : Reaches cs s) {a : Fin m → Fin k → El NR}
    {b : Fin n → Fin k → El NR} {x : Fin m → Fin k → ℝ} {y : Fin n → Fin k → ℝ}
    {dx : Fin m → Fin k → VarId → ℝ} {dy : Fin n → Fin k → VarId → ℝ}
    (ha : ∀ i j, ElHas K s.env (a i j) (x i j) (dx i j)) (hb : ∀ j i, ElHas K s.env (b j i) (y j i) (dy j i)) :
    ∃ (l : List (Option (SVal NR))) (r : Fin m → Fin n → El NR),
      (dotRows s.env.length (arr b) (arr a)).2 = arr r ∧
      Builds cs s (dotRows s.env.length (arr b) (arr a)).1 l ∧
      ∀ i j, ElHas K (s.env ++ l) (r i j) (∑ k, x i k * y j k)
        (fun v => ∑ k, (y j k * dx i k v + x i k * dy j k v)) := by
  unfold arr
  induction m generalizing cs s with
  | zero => exact ⟨[], fun j => j.elim0, by simp [dotRows], by simpa [dotRows] using Builds.nil hs, fun j => j.elim0⟩
  | succ m ih =>
    rw [List.ofFn_succ]
    simp only [dotRows]
    obtain ⟨l1, r1, h1, b1, e1⟩ := dotRow_builds hs (ha 0) hb
    have hlen : s.env.length + (dotRow s.env.length (List.ofFn (a 0)) (List.ofFn fun j => List.ofFn (b j))).1.length =
      (s.env ++ l1).length := by simp [b1.2]
    rw [hlen]
    obtain ⟨l2, r, h2, b2, e2⟩ := ih b1.1 (a := fun i => a i.succ) (x := fun i => x i.succ)
      (dx := fun i => dx i.succ) (fun i j => (ha i.succ j).append (l := l1)) (fun j i => (hb j i).append (l := l1))
    refine ⟨l1 ++ l2, Fin.cons r1 r, ?_, b1.append b2, ?_⟩
    · rw [List.ofFn_succ, Fin.cons_zero]
      simp only [Fin.cons_succ]
      rw [← h2, ← h1]
    · intro i j
      rw [← List.append_assoc]
      refine Fin.cases ?_ (fun i => ?_) i
      · rw [Fin.cons_zero]; exact (e1 j).append
      · rw [Fin.cons_succ]; exact e2 i j

/-- Elements, as NumPy sees them. -/
theorem ofArg_of_seen {cs : List (Cmd NR)} {s : SState NR} (hs : Reaches cs s) {a : Arg NR} {x : ℝ}
    {S : Option (Lin NR)} (ha : SeenAs cs a (.flt (fin x), S)) {d : VarId → ℝ}
    (hd : ∀ v, HasDeriv S v (d v)) (hK : ∀ v, gradOf S v ≠ none → K v) :
    ∃ e, El.ofArg (after cs).env a = .ok e ∧ ElHas K s.env e x d := by
  obtain ⟨sv, h1, h2⟩ := hs.seen ha
  obtain ⟨-, g, hr⟩ := id hs
  have h1' := h1
  rw [hr.eval] at h1
  cases hv : a.eval (after cs).env with
  | none => simp [hv] at h1
  | some v =>
    rw [hv] at h1
    simp only [Option.map_some, Option.some.injEq] at h1
    subst h1
    cases v with
    | unc u =>
      simp only [Val.abs, SVal.seen, UF.abs, Prod.mk.injEq, PyVal.flt.injEq] at h2
      refine ⟨.qty a, by simp [El.ofArg, hv], u.abs g, h1', h2.1, fun w => ?_⟩
      have h3 := hd w
      have h4 := hK w
      rw [← h2.2] at h3 h4
      exact ⟨h3, h4⟩
    | plain y =>
      simp only [Val.abs, SVal.seen, Prod.mk.injEq] at h2
      obtain ⟨rfl, rfl⟩ := h2
      refine ⟨.num (fin x), by simp [El.ofArg, hv], rfl, fun w => (hd w).of_none rfl⟩

theorem ElHas.seen {cs : List (Cmd NR)} {s : SState NR} (hs : Reaches cs s) {e : El NR} {x : ℝ} {d : VarId → ℝ}
    (h : ElHas K s.env e x d) : ∃ S, SeenAs cs e.toArg (.flt (fin x), S) ∧
      ∀ v, HasDeriv S v (d v) ∧ (gradOf S v ≠ none → K v) := by
  cases e with
  | num y =>
    obtain ⟨rfl, h⟩ := h
    exact ⟨none, hs.seenAs (v := .plain (.flt (fin x))) rfl, fun v => ⟨Or.inr ⟨rfl, h v⟩, fun h => absurd rfl h⟩⟩
  | qty a =>
    obtain ⟨Q, h1, h2, h3⟩ := h
    refine ⟨some Q.grad, ?_, fun v => h3 v⟩
    have := hs.seenAs h1
    simp only [SVal.seen, h2] at this
    exact this

theorem filterMap_col {α : Type} (f : Fin k → Fin n → α) (j : Fin n) :
    ((arr f).filterMap fun row => row[j.val]?) = List.ofFn fun i => f i j := by
  unfold arr
  induction k with
  | zero => simp
  | succ k ih =>
    rw [List.ofFn_succ, List.filterMap_cons]
    simp only [List.getElem?_ofFn, j.2, dite_true, Fin.eta]
    rw [List.ofFn_succ, ih]

/-- Matrix product. -/
theorem matDot_main {cs : List (Cmd NR)} {s : SState NR} (hs : Reaches cs s) {A : Fin m → Fin k → Arg NR} {B : Fin k → Fin n → Arg NR}
    {N : Matrix (Fin m) (Fin k) ℝ} {M : Matrix (Fin k) (Fin n) ℝ} {dA : VarId → Matrix (Fin m) (Fin k) ℝ}
    {dB : VarId → Matrix (Fin k) (Fin n) ℝ} {SA : Fin m → Fin k → Option (Lin NR)}
    {SB : Fin k → Fin n → Option (Lin NR)} (hk : k = 0 → n = 0)
    (hA1 : ∀ i j, SeenAs cs (A i j) (.flt (fin (N i j)), SA i j)) (hA2 : ∀ i j v, HasDeriv (SA i j) v (dA v i j))
    (hA3 : ∀ i j v, gradOf (SA i j) v ≠ none → K v)
    (hB1 : ∀ i j, SeenAs cs (B i j) (.flt (fin (M i j)), SB i j)) (hB2 : ∀ i j v, HasDeriv (SB i j) v (dB v i j))
    (hB3 : ∀ i j v, gradOf (SB i j) v ≠ none → K v) :
    ∃ (cmds : List (Cmd NR)) (x : Fin m → Fin n → Arg NR) (S : Fin m → Fin n → Option (Lin NR))
      (l : List (Option (SVal NR))),
      matDot (after cs) (arr A) (arr B) = .ok (cmds, arr x) ∧
      Reaches (cs ++ cmds) { s with env := s.env ++ l } ∧
      ∀ i j, SeenAs (cs ++ cmds) (x i j) (.flt (fin ((N * M) i j)), S i j) ∧
        ∀ v, HasDeriv (S i j) v ((dA v * M + N * dB v) i j) ∧ (gradOf (S i j) v ≠ none → K v) := by
  choose a ha1 ha2 using fun i j => ofArg_of_seen hs (hA1 i j) (d := fun v => dA v i j) (hA2 i j) (hA3 i j)
  choose b hb1 hb2 using fun i j => ofArg_of_seen hs (hB1 i j) (d := fun v => dB v i j) (hB2 i j) (hB3 i j)
  obtain ⟨l, r, h1, h2, h3⟩ := dotRows_builds hs (b := fun j i => b i j) (y := fun j i => M i j)
    (dy := fun j i v => dB v i j) ha2 (fun j i => hb2 i j)
  have eA : mapRes' (mapRes' (El.ofArg (after cs).env)) (arr A) = .ok (arr a) :=
    mapRes'_ofFn (fun i => mapRes'_ofFn (ha1 i))
  have eB : mapRes' (mapRes' (El.ofArg (after cs).env)) (arr B) = .ok (arr b) :=
    mapRes'_ofFn (fun i => mapRes'_ofFn (hb1 i))
  have hh : ((arr b).headD []).length = n := by
    cases k with
    | zero => simpa [arr] using (hk rfl).symm
    | succ k => simp [arr, List.ofFn_succ]
  have ecols : ((List.range n).map fun j => (arr b).filterMap fun row => row[j]?) =
      arr fun j i => b i j := by
    rw [range_ofFn]
    simp only [filterMap_col]
    rfl
  rw [hs.env_length] at h1 h2
  choose S e1 e2 using fun i j => (h3 i j).seen h2.1
  refine ⟨(dotRows (after cs).env.length (arr fun j i => b i j) (arr a)).1, fun i j => (r i j).toArg, S, l, ?_, ?_, ?_⟩
  · unfold matDot
    rw [eA, eB]
    simp only [hh, ecols, h1, map_arr]
  · exact h2.1
  · intro i j
    refine ⟨e1 i j, fun v => ⟨?_, (e2 i j v).2⟩⟩
    have := (e2 i j v).1
    simp only [Matrix.add_apply, Matrix.mul_apply, ← Finset.sum_add_distrib]
    convert this using 3
    ring

theorem matDot_real {cs : List (Cmd NR)} {A : Fin m → Fin k → Arg NR} {B : Fin k → Fin n → Arg NR}
    {N : Matrix (Fin m) (Fin k) ℝ} {M : Matrix (Fin k) (Fin n) ℝ} {dA : VarId → Matrix (Fin m) (Fin k) ℝ}
    {dB : VarId → Matrix (Fin k) (Fin n) ℝ} (hk : k = 0 → n = 0) (hA : IsArray cs A N dA) (hB : IsArray cs B M dB) :
    ∃ (cmds : List (Cmd NR)) (x : Fin m → Fin n → Arg NR),
      matDot (after cs) (arr A) (arr B) = .ok (cmds, arr x) ∧
      IsArray (cs ++ cmds) x (N * M) (fun v => dA v * M + N * dB v) := by
  choose SA hA1 hA2 using hA
  choose SB hB1 hB2 using hB
  obtain ⟨s, hs⟩ := Reaches.exists cs
  obtain ⟨cmds, x, S, l, h1, -, h3⟩ := matDot_main (K := fun _ => True) hs hk hA1 hA2 (fun _ _ _ _ => trivial) hB1 hB2
    (fun _ _ _ _ => trivial)
  exact ⟨cmds, x, h1, fun i j => ⟨S i j, (h3 i j).1, fun v => ((h3 i j).2 v).1⟩⟩

/-! ### Product of a number and a matrix -/

theorem mulPairs_builds {cs : List (Cmd NR)} {s : SState NR} (hs : Reaches cs s) {a b : Fin n → El NR}
    {x y : Fin n → ℝ} {dx dy : Fin n → VarId → ℝ}
    (ha : ∀ i, ElHas K s.env (a i) (x i) (dx i)) (hb : ∀ i, ElHas K s.env (b i) (y i) (dy i)) :
    ∃ (l : List (Option (SVal NR))) (r : Fin n → El NR),
      (mulPairs s.env.length (List.ofFn fun j => (a j, b j))).2 = List.ofFn r ∧
      Builds cs s (mulPairs s.env.length (List.ofFn fun j => (a j, b j))).1 l ∧
      ∀ j, ElHas K (s.env ++ l) (r j) (x j * y j) (fun v => y j * dx j v + x j * dy j v) := by
  induction n generalizing cs s with
  | zero => exact ⟨[], fun j => j.elim0, by simp [mulPairs], by simpa [mulPairs] using Builds.nil hs, fun j => j.elim0⟩
  | succ n ih =>
    rw [List.ofFn_succ]
    simp only [mulPairs]
    obtain ⟨l1, b1, e1⟩ := mul_builds hs (ha 0) (hb 0)
    have hlen : s.env.length + ((a 0).mul s.env.length (b 0)).1.length = (s.env ++ l1).length := by simp [b1.2]
    rw [hlen]
    obtain ⟨l2, r, h2, b2, e2⟩ := ih b1.1 (fun i => (ha i.succ).append (l := l1)) (fun i => (hb i.succ).append (l := l1))
    refine ⟨l1 ++ l2, Fin.cons ((a 0).mul s.env.length (b 0)).2 r, ?_, b1.append b2, ?_⟩
    · rw [List.ofFn_succ, Fin.cons_zero]
      simp only [Fin.cons_succ]
      rw [← h2]
    · intro j
      rw [← List.append_assoc]
      refine Fin.cases ?_ (fun j => ?_) j
      · rw [Fin.cons_zero]; exact e1.append
      · rw [Fin.cons_succ]; exact e2 j

theorem mulPairRows_builds {cs : List (Cmd NR)} {s : SState NR} (hs : Reaches cs s) {a b : Fin m → Fin n → El NR}
    {x y : Fin m → Fin n → ℝ} {dx dy : Fin m → Fin n → VarId → ℝ}
    (ha : ∀ i j, ElHas K s.env (a i j) (x i j) (dx i j)) (hb : ∀ i j, ElHas K s.env (b i j) (y i j) (dy i j)) :
    ∃ (l : List (Option (SVal NR))) (r : Fin m → Fin n → El NR),
      (mulPairRows s.env.length (arr fun i j => (a i j, b i j))).2 = arr r ∧
      Builds cs s (mulPairRows s.env.length (arr fun i j => (a i j, b i j))).1 l ∧
      ∀ i j, ElHas K (s.env ++ l) (r i j) (x i j * y i j) (fun v => y i j * dx i j v + x i j * dy i j v) := by
  unfold arr
  induction m generalizing cs s with
  | zero =>
    exact ⟨[], fun j => j.elim0, by simp [mulPairRows], by simpa [mulPairRows] using Builds.nil hs, fun j => j.elim0⟩
  | succ m ih =>
    rw [List.ofFn_succ]
    simp only [mulPairRows]
    obtain ⟨l1, r1, h1, b1, e1⟩ := mulPairs_builds hs (ha 0) (hb 0)
    have hlen : s.env.length + (mulPairs s.env.length (List.ofFn fun j => (a 0 j, b 0 j))).1.length =
      (s.env ++ l1).length := by simp [b1.2]
    rw [hlen]
    obtain ⟨l2, r, h2, b2, e2⟩ := ih b1.1 (a := fun i => a i.succ) (x := fun i => x i.succ)
      (dx := fun i => dx i.succ) (b := fun i => b i.succ) (y := fun i => y i.succ) (dy := fun i => dy i.succ)
      (fun i j => (ha i.succ j).append (l := l1)) (fun i j => (hb i.succ j).append (l := l1))
    refine ⟨l1 ++ l2, Fin.cons r1 r, ?_, b1.append b2, ?_⟩
    · rw [List.ofFn_succ, Fin.cons_zero]
      simp only [Fin.cons_succ]
      rw [← h2, ← h1]
    · intro i j
      rw [← List.append_assoc]
      refine Fin.cases ?_ (fun i => ?_) i
      · rw [Fin.cons_zero]; exact (e1 j).append
      · rw [Fin.cons_succ]; exact e2 i j

theorem matRmul_single_real {cs : List (Cmd NR)} {c : Arg NR} {x : ℝ} {S : Option (Lin NR)} {dx : VarId → ℝ}
    {A : Fin m → Fin n → Arg NR} {N : Matrix (Fin m) (Fin n) ℝ} {dA : VarId → Matrix (Fin m) (Fin n) ℝ}
    (hc : SeenAs cs c (.flt (fin x), S)) (hd : ∀ v, HasDeriv S v (dx v)) (hA : IsArray cs A N dA) :
    ∃ (cmds : List (Cmd NR)) (y : Fin m → Fin n → Arg NR),
      matRmul (after cs) (arr A) (.single c) = .ok (cmds, arr y) ∧
      IsArray (cs ++ cmds) y (x • N) (fun v => dx v • N + x • dA v) := by
  choose SA hA1 hA2 using hA
  obtain ⟨s, hs⟩ := Reaches.exists cs
  choose a ha1 ha2 using fun i j => ofArg_of_seen (K := fun _ => True) hs (hA1 i j) (d := fun v => dA v i j) (hA2 i j)
    (fun _ _ => trivial)
  obtain ⟨e, he1, he2⟩ := ofArg_of_seen (K := fun _ => True) hs hc hd (fun _ _ => trivial)
  have eA : mapRes' (mapRes' (El.ofArg (after cs).env)) (arr A) = .ok (arr a) :=
    mapRes'_ofFn (fun i => mapRes'_ofFn (ha1 i))
  simp only [matRmul]
  rw [eA, he1]
  cases e with
  | num z =>
    obtain ⟨l, r, h1, h2, h3⟩ := mulPairRows_builds hs ha2 (b := fun _ _ => .num z) (fun _ _ => he2)
    rw [hs.env_length] at h1 h2
    choose S' e1 e2 using fun i j => (h3 i j).seen h2.1
    refine ⟨(mulPairRows (after cs).env.length (arr fun i j => (a i j, .num z))).1, fun i j => (r i j).toArg, ?_, fun i j => ⟨S' i j, ?_, fun v => ?_⟩⟩
    · simp only [map_arr, h1]
    · rw [Matrix.smul_apply, smul_eq_mul, mul_comm]; exact e1 i j
    · have := (e2 i j v).1
      simp only [Matrix.add_apply, Matrix.smul_apply, smul_eq_mul]
      convert this using 1
      ring
  | qty z =>
    obtain ⟨l, r, h1, h2, h3⟩ := mulPairRows_builds hs (a := fun _ _ => .qty z) (fun _ _ => he2) ha2
    rw [hs.env_length] at h1 h2
    choose S' e1 e2 using fun i j => (h3 i j).seen h2.1
    refine ⟨(mulPairRows (after cs).env.length (arr fun i j => (.qty z, a i j))).1, fun i j => (r i j).toArg, ?_, fun i j => ⟨S' i j, ?_, fun v => ?_⟩⟩
    · simp only [map_arr, h1]
    · rw [Matrix.smul_apply, smul_eq_mul]; exact e1 i j
    · have := (e2 i j v).1
      simp only [Matrix.add_apply, Matrix.smul_apply, smul_eq_mul]
      convert this using 1
      ring

end Unc
