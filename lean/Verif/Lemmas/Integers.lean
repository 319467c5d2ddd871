import Verif.Spec.Integers

/-
Lemmas for C94: nominal values of programs with integer constants.
-/

namespace Unc

set_option autoImplicit false

open Num

theorem B64.rdiv_dvd {n d : ℕ} (hd : 0 < d) (h : d ∣ n) : B64.rdiv n d * d = n := by
  unfold B64.rdiv
  have h0 : n % d = 0 := Nat.mod_eq_zero_of_dvd h
  rw [h0, if_pos (Or.inl (by simpa using hd))]
  exact Nat.div_mul_cancel h

theorem B64.rndTo_small {N K : ℕ} (h : N ≤ 2 ^ 53) : B64.rndTo (N * 2 ^ K) 1 = N * 2 ^ K := by
  unfold B64.rndTo
  rw [Nat.div_one, one_mul]
  refine B64.rdiv_dvd (by positivity) ?_
  rcases Nat.eq_zero_or_pos N with rfl | hN
  · simp
  · rcases Nat.lt_or_ge N (2 ^ 53) with h1 | h1
    · have h2 : N * 2 ^ K < 2 ^ (53 + K) := by
        rw [pow_add]
        exact Nat.mul_lt_mul_of_pos_right h1 (by positivity)
      have h3 : Nat.log2 (N * 2 ^ K) < 53 + K := (Nat.log2_lt (by positivity)).2 h2
      exact (pow_dvd_pow 2 (by omega)).trans (dvd_mul_left _ _)
    · have hN : N = 2 ^ 53 := le_antisymm h h1
      subst hN
      rw [← pow_add, Nat.log2_two_pow]
      exact pow_dvd_pow 2 (by omega)

theorem Num.near_small {n : ℤ} (h : n.natAbs ≤ 2 ^ 53) : near n = n * 2 ^ 1074 := by
  rw [near_eq]
  unfold B64.rndInt
  have e : (n * 2 ^ 1074).natAbs = n.natAbs * 2 ^ 1074 := by
    rw [Int.natAbs_mul, Int.natAbs_pow]
    rfl
  rw [e, B64.rndTo_small h, ← e]
  exact Int.sign_mul_natAbs _

theorem Num.ofInt_small {n : ℤ} (h : n.natAbs ≤ 2 ^ 53) : ofInt n = some (.fin (n * 2 ^ 1074)) := by
  have h1 := fits_small h
  rw [← near_small h]
  unfold ofInt at *
  split at h1
  · rename_i h2
    rw [if_pos h2]
  · cases h1

attribute [local irreducible] near ofInt conv

/-- A float and a number. -/
theorem Num.onFloats_left (op : BinOp) (x : B64) {b : Num} {y : B64} (h : b = flt y ∨ ∃ n : ℤ, n.natAbs ≤ 2 ^ 53 ∧ b = int n ∧ y = .fin (n * 2 ^ 1074)) :
    op.onFloats (flt x) b = (op.onFloats x y).map ofVal ∧ op.onFloats b (flt x) = (op.onFloats y x).map ofVal := by
  have hc : conv b = some y := by
    rcases h with rfl | ⟨n, h1, rfl, rfl⟩
    · exact conv_flt y
    · rw [conv_int, if_pos h1]
  have hx := conv_flt x
  have key : ∀ r : PyRes B64, (r.map flt).map PyVal.flt = (r.map PyVal.flt).map ofVal := by
    intro r
    cases r <;> rfl
  have tot : ∀ f, total f (flt x) b = flt (f x y) ∧ total f b (flt x) = flt (f y x) := by
    intro f
    unfold total
    rw [hc, hx]
    exact ⟨rfl, rfl⟩
  have l2 : ∀ f, lift2 f (flt x) b = (f x y).map flt ∧ lift2 f b (flt x) = (f y x).map flt := by
    intro f
    unfold lift2
    rw [hc, hx]
    exact ⟨rfl, rfl⟩
  have hadd : flt x + b = flt (x + y) ∧ b + flt x = flt (y + x) := by
    refine ⟨Eq.trans ?_ (tot (· + ·)).1, Eq.trans ?_ (tot (· + ·)).2⟩ <;> cases b <;> rfl
  have hsub : flt x - b = flt (x - y) ∧ b - flt x = flt (y - x) := by
    refine ⟨Eq.trans ?_ (tot (· - ·)).1, Eq.trans ?_ (tot (· - ·)).2⟩ <;> cases b <;> rfl
  have hmul : flt x * b = flt (x * y) ∧ b * flt x = flt (y * x) := by
    rcases h with rfl | ⟨n, h1, rfl, rfl⟩
    · exact ⟨rfl, rfl⟩
    · change (match ofInt n with | some y => flt (x * y) | none => raised) = _ ∧
        (match ofInt n with | some y => flt (y * x) | none => raised) = _
      rw [ofInt_small h1]
      exact ⟨rfl, rfl⟩
  cases op with
  | add => simp only [BinOp.onFloats, hadd]; exact ⟨rfl, rfl⟩
  | sub => simp only [BinOp.onFloats, hsub]; exact ⟨rfl, rfl⟩
  | mul => simp only [BinOp.onFloats, hmul]; exact ⟨rfl, rfl⟩
  | truediv =>
    simp only [BinOp.onFloats]
    rw [← key, ← key, ← (l2 _).1, ← (l2 _).2]
    exact ⟨rfl, rfl⟩
  | floordiv =>
    simp only [BinOp.onFloats]
    rw [← key, ← key, ← (l2 _).1, ← (l2 _).2]
    exact ⟨rfl, rfl⟩
  | mod =>
    simp only [BinOp.onFloats]
    rw [← key, ← key, ← (l2 _).1, ← (l2 _).2]
    exact ⟨rfl, rfl⟩
  | pow =>
    have hp : ∀ a b : Num, PyOps.pow a b = (match conv a, conv b with
        | some x, some y =>
          match PyOps.pow x y with
          | .ok (.real z) => .ok (.real (flt z))
          | .ok .complex => .ok .complex
          | .error e => .error e
        | _, _ => .error .overflowError : PyRes (NumRes Num)) := fun _ _ => rfl
    simp only [BinOp.onFloats, hp, hc, hx]
    constructor
    · cases PyOps.pow x y with
      | error e => rfl
      | ok z => cases z <;> rfl
    · cases PyOps.pow y x with
      | error e => rfl
      | ok z => cases z <;> rfl

/-- The values of an argument. -/
def SameVal (v : PyVal Num) (w : PyVal B64) : Prop :=
  v = ofVal w ∨ ∃ n : ℤ, n.natAbs ≤ 2 ^ 53 ∧ v = .flt (int n) ∧ w = .flt (.fin (n * 2 ^ 1074))

/-- Complex results are refused. -/
def refuse {F : Type} : PyRes (PyVal F) → PyRes (PyVal F)
  | .ok .cplx => .error .valueError
  | r => r

theorem plainBinop_flt {F : Type} [PyOps F] (op : BinOp) (x y : F) :
    plainBinop op (.flt x) (.flt y) = refuse (op.onFloats x y) := by
  simp only [plainBinop]
  cases op.onFloats x y with
  | error e => rfl
  | ok z => cases z <;> rfl

theorem plainBinop_same (op : BinOp) (u : PyVal B64) {v : PyVal Num} {w : PyVal B64} (h : SameVal v w) :
    plainBinop op (ofVal u) v = (plainBinop op u w).map ofVal ∧ plainBinop op v (ofVal u) = (plainBinop op w u).map ofVal := by
  have key : ∀ r : PyRes (PyVal B64), refuse (r.map ofVal) = (refuse r).map ofVal := by
    intro r
    cases r with
    | error e => rfl
    | ok z => cases z <;> rfl
  have main : ∀ (x : B64) (b : Num) (y : B64), (b = flt y ∨ ∃ n : ℤ, n.natAbs ≤ 2 ^ 53 ∧ b = int n ∧ y = .fin (n * 2 ^ 1074)) →
      plainBinop op (.flt (flt x)) (.flt b) = (plainBinop op (.flt x) (.flt y)).map ofVal ∧
      plainBinop op (.flt b) (.flt (flt x)) = (plainBinop op (.flt y) (.flt x)).map ofVal := by
    intro x b y h
    obtain ⟨h1, h2⟩ := onFloats_left op x h
    rw [plainBinop_flt, plainBinop_flt, plainBinop_flt, plainBinop_flt, h1, h2]
    exact ⟨key _, key _⟩
  rcases h with rfl | ⟨n, h1, rfl, rfl⟩
  · cases u with
    | flt x =>
      cases w with
      | flt y => exact main x _ y (Or.inl rfl)
      | _ => exact ⟨rfl, rfl⟩
    | _ => cases w <;> exact ⟨rfl, rfl⟩
  · cases u with
    | flt x => exact main x _ _ (Or.inr ⟨n, h1, rfl, rfl⟩)
    | _ => exact ⟨rfl, rfl⟩

theorem valueOf_map {α β : Type} (f : α → β) (r : PyRes α) : valueOf (r.map f) = (valueOf r).map f := by
  cases r <;> rfl

theorem plainUnop_same (op : UnOp) (u : PyVal B64) : plainUnop op (ofVal u) = (plainUnop op u).map ofVal := by
  cases u with
  | flt x =>
    cases op with
    | abs => rfl
    | neg => rfl
    | pos => rfl
    | trunc =>
      change (lift1 PyOps.trunc (flt x)).map PyVal.flt = ((PyOps.trunc x).map PyVal.flt).map ofVal
      unfold lift1
      rw [conv_flt]
      change ((PyOps.trunc x).map flt).map PyVal.flt = _
      cases PyOps.trunc x <;> rfl
  | _ => rfl

/-- The same values. -/
def SameEnv (p : Plain Num) (q : Plain B64) : Prop := p.env = q.env.map (Option.map ofVal)

theorem SameEnv.ref {p : Plain Num} {q : Plain B64} (h : SameEnv p q) (k : ℕ) :
    (Arg.ref k : Arg Num).plain p.env = ((Arg.ref k : Arg B64).plain q.env).map ofVal := by
  simp only [Arg.plain]
  rw [h, List.getElem?_map]
  cases q.env[k]? with
  | none => rfl
  | some o => cases o <;> rfl

theorem SameEnv.arg {p : Plain Num} {q : Plain B64} (h : SameEnv p q) {x : Arg Num} {x' : Arg B64} (hx : SameArg x x') :
    (x.plain p.env = none ∧ x'.plain q.env = none) ∨ ∃ v w, x.plain p.env = some v ∧ x'.plain q.env = some w ∧ SameVal v w := by
  cases hx with
  | ref k =>
    rw [h.ref k]
    cases (Arg.ref k : Arg B64).plain q.env with
    | none => exact Or.inl ⟨rfl, rfl⟩
    | some w => exact Or.inr ⟨_, w, rfl, rfl, Or.inl rfl⟩
  | float x => exact Or.inr ⟨_, _, rfl, rfl, Or.inl rfl⟩
  | int n hn => exact Or.inr ⟨_, _, rfl, rfl, Or.inr ⟨n, hn, rfl, rfl⟩⟩

theorem SameEnv.push {p : Plain Num} {q : Plain B64} (h : SameEnv p q) {f : List (WrapDef Num)} {g : List (WrapDef B64)}
    {o : Option (PyVal Num)} {o' : Option (PyVal B64)} (ho : o = o'.map ofVal) :
    SameEnv ⟨f, p.env ++ [o]⟩ ⟨g, q.env ++ [o']⟩ := by
  unfold SameEnv at *
  rw [h, ho, List.map_append]
  rfl

theorem SameEnv.step {p : Plain Num} {q : Plain B64} (h : SameEnv p q) {c : Cmd Num} {c' : Cmd B64} (hc : SameCmd c c') :
    SameEnv (p.step c) (q.step c') := by
  cases hc with
  | ufloat n s t => exact h.push rfl
  | left op k hy =>
    simp only [Plain.step, h.ref k]
    rcases h.arg hy with ⟨h1, h2⟩ | ⟨v, w, h1, h2, h3⟩
    · rw [h1, h2]
      cases (Arg.ref k : Arg B64).plain q.env <;> exact h.push rfl
    · rw [h1, h2]
      cases (Arg.ref k : Arg B64).plain q.env with
      | none => exact h.push rfl
      | some u =>
        refine h.push ?_
        rw [← valueOf_map, ← (plainBinop_same op u h3).1]
  | right op k hx =>
    simp only [Plain.step, h.ref k]
    rcases h.arg hx with ⟨h1, h2⟩ | ⟨v, w, h1, h2, h3⟩
    · rw [h1, h2]
      cases (Arg.ref k : Arg B64).plain q.env <;> exact h.push rfl
    · rw [h1, h2]
      cases (Arg.ref k : Arg B64).plain q.env with
      | none => exact h.push rfl
      | some u =>
        refine h.push ?_
        rw [← valueOf_map, ← (plainBinop_same op u h3).2]
  | unop op k =>
    simp only [Plain.step, h.ref k]
    refine h.push ?_
    cases (Arg.ref k : Arg B64).plain q.env with
    | none => rfl
    | some u =>
      change valueOf (plainUnop op (ofVal u)) = (valueOf (plainUnop op u)).map ofVal
      rw [plainUnop_same, valueOf_map]
  | copy k => exact h.push (h.ref k)
  | deepcopy k => exact h.push (h.ref k)
  | setStd k s => exact h
  | nominal k => exact h
  | derivatives k => exact h
  | errorComponents k => exact h
  | stdDev k => exact h

theorem SameEnv.run {cs : List (Cmd Num)} {cs' : List (Cmd B64)} (hc : SameProgram cs cs') :
    ∀ {p : Plain Num} {q : Plain B64}, SameEnv p q → SameEnv (p.run cs) (q.run cs') := by
  induction hc with
  | nil => exact fun h => h
  | cons h1 _ ih => exact fun h => ih (h.step h1)

theorem SameCmd.not_variable {c : Cmd Num} {c' : Cmd B64} (hc : SameCmd c c') : c.isVariable = false ∧ c'.isVariable = false := by
  cases hc <;> exact ⟨rfl, rfl⟩

theorem SameProgram.not_variable {cs : List (Cmd Num)} {cs' : List (Cmd B64)} (hc : SameProgram cs cs') :
    (∀ c ∈ cs, c.isVariable = false) ∧ ∀ c ∈ cs', c.isVariable = false := by
  induction hc with
  | nil => exact by simp
  | cons h1 _ ih =>
    obtain ⟨a, b⟩ := h1.not_variable
    exact ⟨fun c hc => (List.mem_cons.1 hc).elim (fun e => e ▸ a) (ih.1 c), fun c hc => (List.mem_cons.1 hc).elim (fun e => e ▸ b) (ih.2 c)⟩

end Unc
