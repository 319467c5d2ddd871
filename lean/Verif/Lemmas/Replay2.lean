import Verif.Lemmas.Replay
import Verif.Lemmas.Shape4
import Verif.Lemmas.Iso2

/-
Derivatives of a whole calculation: induction on the program.
-/

set_option autoImplicit false
set_option linter.unusedSectionVars false

namespace Unc

open Topology NR Filter

/-! ### Programs with another nominal value -/

/-- The command number `n`, where `m` variables were created before. -/
noncomputable def replaced (t : ℝ) (v m : Nat) (c : Cmd NR) : Cmd NR :=
  if c.created.isSome = true ∧ v = m then c.setNominal t else c

theorem withNominal_snoc (t : ℝ) (v : Nat) (cs : List (Cmd NR)) (c : Cmd NR) :
    withNominal t v (cs ++ [c]) = withNominal t v cs ++ [replaced t v (variableNominals cs).length c] := by
  induction cs generalizing v with
  | nil =>
    simp only [List.nil_append, withNominal, variableNominals, List.filterMap_nil, List.length_nil, replaced]
    cases hc : c.created with
    | none => simp
    | some n => cases v <;> simp
  | cons a cs ih =>
    simp only [List.cons_append, withNominal]
    cases ha : a.created with
    | none =>
      simp only [ih]
      simp [variableNominals, ha]
    | some n =>
      have hv : variableNominals (a :: cs) = n :: variableNominals cs := by simp [variableNominals, ha]
      cases v with
      | zero => simp [hv, replaced]
      | succ v => simp [hv, replaced, ih]

theorem replaced_defs (t : ℝ) (v m : Nat) (c : Cmd NR) : (replaced t v m c).defs = c.defs := by
  unfold replaced
  split
  · cases c <;> rfl
  · rfl

theorem replaced_arity (t : ℝ) (v m : Nat) (c : Cmd NR) : (replaced t v m c).arity = c.arity := by
  unfold replaced
  split
  · cases c <;> rfl
  · rfl

theorem replaced_of_none {t : ℝ} {v m : Nat} {c : Cmd NR} (h : c.created = none) :
    replaced t v m c = c := by
  simp [replaced, h]

theorem Plain.step_env {F : Type} [PyMath F] (p : Plain F) (c : Cmd F) :
    ∃ l, (p.step c).env = p.env ++ l ∧ l.length = c.arity ∧ (p.step c).fns = p.fns ++ c.defs := by
  by_cases hd : c.defs = []
  · obtain ⟨l, h1, h2⟩ := Plain.step_arity p hd
    exact ⟨l, by rw [h1], h2, by rw [h1, hd]; simp⟩
  · cases c <;> simp only [Cmd.defs, not_true_eq_false] at hd
    exact ⟨[], by simp [Plain.step], rfl, by simp [Plain.step, Cmd.defs]⟩

theorem plainly_fns {F : Type} [PyMath F] (cs : List (Cmd F)) : (plainly cs).fns = fnsOf cs := by
  induction cs using List.reverseRecOn with
  | nil => simp [plainly, Plain.run, fnsOf]
  | append_singleton cs c ih =>
    rw [plainly_snoc]
    obtain ⟨l, -, -, h⟩ := (plainly cs).step_env c
    rw [h, ih]
    simp [fnsOf]

theorem plainly_length {F : Type} [PyMath F] (cs : List (Cmd F)) :
    (plainly cs).env.length = (cs.map Cmd.arity).sum := by
  induction cs using List.reverseRecOn with
  | nil => simp [plainly, Plain.run]
  | append_singleton cs c ih =>
    rw [plainly_snoc]
    obtain ⟨l, h1, h2, -⟩ := (plainly cs).step_env c
    rw [h1, List.length_append, ih, h2]
    simp

theorem after_length {F : Type} [PyMath F] [Halts F] (cs : List (Cmd F)) :
    (after cs).env.length = (cs.map Cmd.arity).sum := by
  induction cs using List.reverseRecOn with
  | nil => simp [after, Machine.run, Machine.init]
  | append_singleton cs c ih =>
    obtain ⟨l, h1, h2⟩ := (after_step_ok cs c).env
    rw [h1, List.length_append, ih, h2]
    simp

theorem withNominal_arity (t : ℝ) (v : Nat) (cs : List (Cmd NR)) :
    (withNominal t v cs).map Cmd.arity = cs.map Cmd.arity := by
  induction cs using List.reverseRecOn with
  | nil => rfl
  | append_singleton cs c ih => rw [withNominal_snoc]; simp [ih, replaced_arity]

theorem withNominal_fns (t : ℝ) (v : Nat) (cs : List (Cmd NR)) : fnsOf (withNominal t v cs) = fnsOf cs := by
  induction cs using List.reverseRecOn with
  | nil => rfl
  | append_singleton cs c ih =>
    rw [withNominal_snoc]
    simp only [fnsOf, List.flatMap_append] at ih ⊢
    rw [← List.append_assoc, ih]
    simp [replaced_defs]

theorem withNominal_length (t : ℝ) (v : Nat) (cs : List (Cmd NR)) :
    (plainly (withNominal t v cs)).env.length = (after cs).env.length := by
  rw [plainly_length, withNominal_arity, after_length]

theorem valueWith_old {cs : List (Cmd NR)} {c : Cmd NR} {v k : Nat} (hk : k < (after cs).env.length) (t : ℝ) :
    valueWith (cs ++ [c]) v k t = valueWith cs v k t := by
  unfold valueWith
  rw [withNominal_snoc, plainly_snoc]
  obtain ⟨l, h1, -, -⟩ := (plainly (withNominal t v cs)).step_env (replaced t v (variableNominals cs).length c)
  rw [h1, List.getElem?_append_left (by rw [withNominal_length]; exact hk)]

theorem valueWith_new {cs : List (Cmd NR)} {c : Cmd NR} {v : Nat} {t : ℝ} {l : List (Option (PyVal NR))}
    (h : ((plainly (withNominal t v cs)).step (replaced t v (variableNominals cs).length c)).env =
      (plainly (withNominal t v cs)).env ++ l) (i : Nat) :
    valueWith (cs ++ [c]) v ((after cs).env.length + i) t = (l[i]?).join := by
  unfold valueWith
  rw [withNominal_snoc, plainly_snoc, h, List.getElem?_append_right (by rw [withNominal_length]; omega),
    withNominal_length, Nat.add_sub_cancel_left]

theorem SmoothResult.lt {cs : List (Cmd NR)} {k : Nat} (h : SmoothResult cs k) :
    k < (after cs).env.length := by
  induction h with
  | new h1 h2 => exact h2
  | @old cs c k _ ih =>
    obtain ⟨l, h1, -⟩ := (after_step_ok cs c).env
    rw [h1, List.length_append]
    omega

theorem SmoothResult.inv {cs : List (Cmd NR)} {c : Cmd NR} {k : Nat} (h : SmoothResult (cs ++ [c]) k) :
    SmoothResult cs k ∨ ((after cs).env.length ≤ k ∧ SmoothCmd cs c ∧
      ∀ j, Arg.ref j ∈ c.inputs → SmoothResult cs j) := by
  generalize hl : cs ++ [c] = l at h
  cases h with
  | @new cs' c' _ h1 h2 hs hi =>
    obtain ⟨rfl, e⟩ := List.append_inj' hl rfl
    cases e
    exact Or.inr ⟨h1, hs, hi⟩
  | @old cs' c' _ h =>
    obtain ⟨rfl, e⟩ := List.append_inj' hl rfl
    exact Or.inl h

/-! ### The induction -/

/-- What is known of the state reached by `cs`. -/
structure Tracks (v : Nat) (t0 : ℝ) (cs : List (Cmd NR)) (s : SState NR) : Prop where
  reaches : Reaches cs s
  vars : s.vars.length = (variableNominals cs).length
  follows : ∀ k, SmoothResult cs k → ∀ a, (s.env[k]?).join = some a →
    Follows v t0 (valueWith cs v k) a.seen

theorem Tracks.arg {v : Nat} {t0 : ℝ} {cs : List (Cmd NR)} {s : SState NR} (h : Tracks v t0 cs s)
    {x : Arg NR} (hx : ∀ j, x = .ref j → SmoothResult cs j) {a : SVal NR} (ha : x.seval s.env = some a) :
    Follows v t0 (fun t => x.plain (plainly (withNominal t v cs)).env) a.seen := by
  cases x with
  | const c =>
    cases ha
    exact Eventually.of_forall fun _ => rfl
  | ref j => exact h.follows j (hx j rfl) a ha

theorem Tracks.args {v : Nat} {t0 : ℝ} {cs : List (Cmd NR)} {s : SState NR} (h : Tracks v t0 cs s)
    {xs : List (Arg NR)} (hx : ∀ j, Arg.ref j ∈ xs → SmoothResult cs j) {as : List (SVal NR)}
    (ha : evalArgs (Arg.seval s.env) xs = some as) :
    AllSeenAs cs xs (as.map SVal.seen) ∧
    List.Forall₂ (fun x a => Follows v t0 (fun t => x.plain (plainly (withNominal t v cs)).env) a) xs
      (as.map SVal.seen) := by
  induction xs generalizing as with
  | nil => cases ha; exact ⟨trivial, .nil⟩
  | cons x xs ih =>
    simp only [evalArgs] at ha
    cases h1 : x.seval s.env with
    | none => rw [h1] at ha; cases ha
    | some a =>
      rw [h1] at ha
      simp only at ha
      cases h2 : evalArgs (Arg.seval s.env) xs with
      | none => rw [h2] at ha; cases ha
      | some as' =>
        rw [h2] at ha
        cases ha
        obtain ⟨h3, h4⟩ := ih (fun j hj => hx j (by simp [hj])) h2
        exact ⟨⟨h.reaches.seenAs h1, h3⟩,
          .cons (h.arg (fun j hj => hx j (by simp [hj])) h1) h4⟩

theorem Tracks.kwargs {v : Nat} {t0 : ℝ} {cs : List (Cmd NR)} {s : SState NR} (h : Tracks v t0 cs s)
    {xs : List (String × Arg NR)} (hx : ∀ j, Arg.ref j ∈ xs.map Prod.snd → SmoothResult cs j)
    {as : List (String × SVal NR)} (ha : evalArgs (Arg.sevalKw s.env) xs = some as) :
    AllSeenAsKw cs xs (as.map fun p => (p.1, p.2.seen)) ∧
    List.Forall₂ (fun x a => x.1 = a.1 ∧
      Follows v t0 (fun t => x.2.plain (plainly (withNominal t v cs)).env) a.2) xs
      (as.map fun p => (p.1, p.2.seen)) := by
  induction xs generalizing as with
  | nil => cases ha; exact ⟨trivial, .nil⟩
  | cons x xs ih =>
    obtain ⟨k, x⟩ := x
    simp only [evalArgs, Arg.sevalKw] at ha
    cases h1 : x.seval s.env with
    | none => rw [h1] at ha; cases ha
    | some a =>
      rw [h1] at ha
      simp only [Option.map_some] at ha
      cases h2 : evalArgs (Arg.sevalKw s.env) xs with
      | none => rw [h2] at ha; cases ha
      | some as' =>
        rw [h2] at ha
        cases ha
        obtain ⟨h3, h4⟩ := ih (fun j hj => hx j (by rw [List.map_cons]; exact List.mem_cons_of_mem _ hj)) h2
        exact ⟨⟨rfl, h.reaches.seenAs h1, h3⟩,
          .cons ⟨rfl, h.arg (fun j hj => hx j (by rw [← hj]; exact List.mem_cons_self)) h1⟩ h4⟩

theorem bind_new {s : SState NR} {r : PyRes (SVal NR)} {k : Nat} {a : SVal NR} (hk : s.env.length ≤ k)
    (h : (((s.bind r).1.env)[k]?).join = some a) : k = s.env.length ∧ r = .ok a := by
  have key : ∀ o : Option (SVal NR), ((s.env ++ [o])[k]?).join = some a → k = s.env.length ∧ o = some a := by
    intro o ho
    rw [List.getElem?_append_right hk] at ho
    by_cases he : k - s.env.length = 0
    · rw [he] at ho
      exact ⟨by omega, by simpa using ho⟩
    · obtain ⟨i, hi⟩ := Nat.exists_eq_succ_of_ne_zero he
      rw [hi] at ho
      simp at ho
  cases r with
  | error e => exact absurd (key none h).2 (by simp)
  | ok b =>
    cases b with
    | unc q =>
      obtain ⟨h1, h2⟩ := key (some (.unc q)) h
      exact ⟨h1, by rw [Option.some.inj h2]⟩
    | plain p =>
      cases p with
      | notImpl => exact absurd (key none h).2 (by simp)
      | _ =>
        obtain ⟨h1, h2⟩ := key _ h
        exact ⟨h1, by rw [Option.some.inj h2]⟩

theorem invalid_new {s : SState NR} {n k : Nat} {a : SVal NR} (hk : s.env.length ≤ k)
    (h : (((s.invalid n).1.env)[k]?).join = some a) : False := by
  simp only [SState.invalid] at h
  rw [List.getElem?_append_right hk, List.getElem?_replicate] at h
  split at h <;> simp at h

theorem trunc_ev {x : ℝ} (h : ∀ k : ℤ, k ≠ 0 → x ≠ k) : ∀ᶠ t in 𝓝 x, truncReal t = truncReal x := by
  by_cases hx : x = 0
  · subst hx
    filter_upwards [eventually_gt_nhds (show (-1:ℝ) < 0 by norm_num),
      eventually_lt_nhds (show (0:ℝ) < 1 by norm_num)] with t h1 h2
    have e1 : 0 ≤ t → ⌊t⌋ = 0 := fun h => Int.floor_eq_iff.mpr ⟨by simpa using h, by simpa using h2⟩
    have e2 : ¬ 0 ≤ t → ⌈t⌉ = 0 := fun h => Int.ceil_eq_iff.mpr ⟨by simpa using h1, by simpa using (not_le.mp h).le⟩
    unfold truncReal
    split
    · rename_i h0; rw [e1 h0]; simp
    · rename_i h0; rw [e2 h0]; simp
  · have hn : ∀ k : ℤ, x ≠ k := by
      intro k
      by_cases hk : k = 0
      · subst hk; simpa using hx
      · exact h k hk
    rcases lt_or_gt_of_ne hx with h0 | h0
    · have h1 : (⌈x⌉ : ℝ) - 1 < x := by have := Int.ceil_lt_add_one x; linarith
      have h2 : x < (⌈x⌉ : ℝ) := lt_of_le_of_ne (Int.le_ceil _) (hn _)
      filter_upwards [eventually_gt_nhds h1, eventually_lt_nhds h2, eventually_lt_nhds h0] with t h3 h4 h5
      unfold truncReal
      rw [if_neg (not_le.mpr h5), if_neg (not_le.mpr h0), Int.ceil_eq_iff.mpr ⟨h3, h4.le⟩]
    · have h1 : (⌊x⌋ : ℝ) < x := lt_of_le_of_ne (Int.floor_le _) (fun e => hn _ e.symm)
      have h2 : x < (⌊x⌋ : ℝ) + 1 := Int.lt_floor_add_one _
      filter_upwards [eventually_gt_nhds h1, eventually_lt_nhds h2, eventually_gt_nhds h0] with t h3 h4 h5
      unfold truncReal
      rw [if_pos h5.le, if_pos h0.le, Int.floor_eq_iff.mpr ⟨h3.le, h4⟩]

section
variable {v : Nat} {t0 : ℝ} {cs : List (Cmd NR)} {s : SState NR}

theorem Tracks.ufloat_new (h : Tracks v t0 cs s) {n std : NR} {label : Option String}
    (ht : ∀ n', (variableNominals (cs ++ [.ufloat n std label]))[v]? = some n' → n' = fin t0)
    (hs : SmoothCmd cs (.ufloat n std label)) {k : Nat} (hk : s.env.length ≤ k) {a : SVal NR}
    (ha : (((s.step (.ufloat n std label)).1.env)[k]?).join = some a) :
    Follows v t0 (valueWith (cs ++ [.ufloat n std label]) v k) a.seen := by
  obtain ⟨x, rfl⟩ := hs
  have hcr : (Cmd.ufloat (fin x) std label).created = if specBadStd std = true then none else some (fin x) := rfl
  by_cases hb : specBadStd std = true
  · simp only [SState.step, hb, if_true] at ha
    exact (invalid_new (n := 1) hk ha).elim
  · simp only [SState.step, hb] at ha
    obtain ⟨rfl, e⟩ := bind_new (r := .ok (.unc ⟨fin x, Lin.single s.vars.length, some s.vars.length⟩)) hk ha
    cases e
    simp only [hb] at hcr
    have hv : ∀ t, ((plainly (withNominal t v cs)).step
        (replaced t v (variableNominals cs).length (.ufloat (fin x) std label))).env =
        (plainly (withNominal t v cs)).env ++ [some (.flt (fin (if v = s.vars.length then t else x)))] := by
      intro t
      unfold replaced
      rw [hcr, ← h.vars]
      by_cases hv : v = s.vars.length <;> simp [hv, Cmd.setNominal, Plain.step]
    have hval : ∀ t, valueWith (cs ++ [.ufloat (fin x) std label]) v s.env.length t =
        some (.flt (fin (if v = s.vars.length then t else x))) := by
      intro t
      have := valueWith_new (hv t) 0
      rw [Nat.add_zero, ← h.reaches.env_length] at this
      rw [this]; rfl
    by_cases hvv : v = s.vars.length
    · have : fin x = fin t0 := by
        apply ht
        rw [hvv, h.vars]
        simp only [variableNominals, List.filterMap_append, List.filterMap_cons, List.filterMap_nil]
        rw [hcr]
        simp
      have hx : x = t0 := by simpa using this
      subst hx
      refine ⟨fun t => t, 1, rfl, Eventually.of_forall fun t => by rw [hval, if_pos hvv], hasDerivAt_id' _, ?_⟩
      rw [hvv]
      exact HasCoef.single _
    · refine ⟨fun _ => x, 0, rfl, Eventually.of_forall fun t => by rw [hval, if_neg hvv],
        hasDerivAt_const _ _, HasCoef.single_ne hvv⟩

theorem Tracks.call_new (h : Tracks v t0 cs s) {f : Nat} {args : List (Arg NR)}
    {kwargs : List (String × Arg NR)} (hs : SmoothCmd cs (.call f args kwargs))
    (hi : ∀ j, Arg.ref j ∈ (Cmd.call f args kwargs).inputs → SmoothResult cs j) {k : Nat}
    (hk : s.env.length ≤ k) {a : SVal NR}
    (ha : (((s.step (.call f args kwargs)).1.env)[k]?).join = some a) :
    Follows v t0 (valueWith (cs ++ [.call f args kwargs]) v k) a.seen := by
  simp only [SState.step] at ha
  cases hf : s.fns[f]? with
  | none => rw [hf] at ha; exact (invalid_new hk ha).elim
  | some df =>
    rw [hf] at ha
    simp only at ha
    cases h1 : evalArgs (Arg.seval s.env) args with
    | none => rw [h1] at ha; exact (invalid_new hk ha).elim
    | some as =>
      cases h2 : evalArgs (Arg.sevalKw s.env) kwargs with
      | none => rw [h1, h2] at ha; exact (invalid_new hk ha).elim
      | some kws =>
        rw [h1, h2] at ha
        simp only at ha
        obtain ⟨rfl, hr⟩ := bind_new hk ha
        obtain ⟨s1, f1⟩ := h.args (fun j hj => hi j (List.mem_append_left _ hj)) h1
        obtain ⟨s2, f2⟩ := h.kwargs (fun j hj => hi j (List.mem_append_right _ hj)) h2
        obtain ⟨γ1, γ1', c1, e1⟩ := args_curves f1
        obtain ⟨γ2, γ2', c2, e2⟩ := kwargs_curves f2
        have hdoc := docCall_seen df as kws
        rw [hr] at hdoc
        rw [h.reaches.fns] at hf
        have hfol := docCall_follows c1 c2 (fun hu => hs df _ _ hf s1 s2 hu) hdoc
        refine hfol.congr ?_
        filter_upwards [e1, e2] with t h3 h4
        have := valueWith_new (cs := cs) (c := .call f args kwargs) (v := v) (t := t)
          (l := [valueOf (df.f (movedArgs (as.map SVal.seen) fun i => γ1 i t)
            (movedKw (kws.map fun p => (p.1, p.2.seen)) fun i => γ2 i t))]) (by
            rw [replaced_of_none rfl]
            simp only [Plain.step, plainly_fns, withNominal_fns, hf, h3, h4]) 0
        rw [Nat.add_zero, ← h.reaches.env_length] at this
        rw [this]; rfl

theorem Tracks.lcst_new (h : Tracks v t0 cs s) {f : PyFn NR} {args : List (Arg NR)}
    {kwargs : List (String × Arg NR)} (hs : SmoothCmd cs (.lcst f args kwargs))
    (hi : ∀ j, Arg.ref j ∈ (Cmd.lcst f args kwargs).inputs → SmoothResult cs j) {k : Nat}
    (hk : s.env.length ≤ k) {a : SVal NR}
    (ha : (((s.step (.lcst f args kwargs)).1.env)[k]?).join = some a) :
    Follows v t0 (valueWith (cs ++ [.lcst f args kwargs]) v k) a.seen := by
  simp only [SState.step] at ha
  cases h1 : evalArgs (Arg.seval s.env) args with
  | none => rw [h1] at ha; exact (invalid_new hk ha).elim
  | some as =>
    cases h2 : evalArgs (Arg.sevalKw s.env) kwargs with
    | none => rw [h1, h2] at ha; exact (invalid_new hk ha).elim
    | some kws =>
      rw [h1, h2] at ha
      simp only at ha
      obtain ⟨rfl, hr⟩ := bind_new hk ha
      obtain ⟨s1, f1⟩ := h.args (fun j hj => hi j (List.mem_append_left _ hj)) h1
      obtain ⟨s2, f2⟩ := h.kwargs (fun j hj => hi j (List.mem_append_right _ hj)) h2
      obtain ⟨γ1, γ1', c1, e1⟩ := args_curves f1
      obtain ⟨γ2, γ2', c2, e2⟩ := kwargs_curves f2
      have hal := LocallyConstantAt.along (hs _ _ s1 s2) c1 c2
      have en1 : (as.map SVal.seen).map Prod.fst = as.map SVal.nominal := by
        rw [List.map_map]; exact List.map_congr_left (fun a _ => a.seen_fst)
      have en2 : (kws.map fun p => (p.1, p.2.seen)).map (fun p => (p.1, p.2.1)) =
          kws.map (fun p => (p.1, p.2.nominal)) := by
        rw [List.map_map]
        exact List.map_congr_left (fun a _ => by simp [SVal.seen_fst])
      rw [en1, en2] at hal
      unfold specLcst at hr
      cases hfv : f (as.map SVal.nominal) (kws.map fun p => (p.1, p.2.nominal)) with
      | error e => rw [hfv] at hr; cases hr
      | ok w =>
        rw [hfv] at hr hal
        cases hr
        simp only [SVal.seen, Follows]
        filter_upwards [e1, e2, hal] with t h3 h4 h5
        have := valueWith_new (cs := cs) (c := .lcst f args kwargs) (v := v) (t := t)
          (l := [some w]) (by
            rw [replaced_of_none rfl]
            simp only [Plain.step, h3, h4, h5, valueOf]) 0
        rw [Nat.add_zero, ← h.reaches.env_length] at this
        rw [this]; rfl

/-- A result of the operation of one argument. -/
theorem Tracks.modf_new (h : Tracks v t0 cs s) {x : Arg NR} (hs : SmoothCmd cs (.modf x))
    (hi : ∀ j, Arg.ref j ∈ (Cmd.modf x).inputs → SmoothResult cs j) {k : Nat}
    (hk : s.env.length ≤ k) {a : SVal NR} (ha : (((s.step (.modf x)).1.env)[k]?).join = some a) :
    Follows v t0 (valueWith (cs ++ [.modf x]) v k) a.seen := by
  simp only [SState.step] at ha
  cases h1 : x.seval s.env with
  | none => rw [h1] at ha; exact (invalid_new hk ha).elim
  | some b =>
    rw [h1] at ha
    simp only at ha
    rcases hcst : b.isConst s.vars.length with _ | _
    swap
    · simp only [hcst, if_true] at ha; exact (invalid_new hk ha).elim
    simp only [hcst, Bool.false_eq_true, if_false] at ha
    have f1 := h.arg (fun j hj => hi j (by simp [Cmd.inputs, hj])) h1
    have hseen := h.reaches.seenAs h1
    have two : ∀ {r1 r2 : Option (SVal NR)}, ((s.env ++ [r1, r2])[k]?).join = some a →
        (k = s.env.length ∧ r1 = some a) ∨ (k = s.env.length + 1 ∧ r2 = some a) := by
      intro r1 r2 h2
      rw [List.getElem?_append_right hk] at h2
      obtain ⟨i, rfl⟩ : ∃ i, k = s.env.length + i := ⟨k - s.env.length, by omega⟩
      rw [Nat.add_sub_cancel_left] at h2
      match i, h2 with
      | 0, h2 => exact Or.inl ⟨rfl, by simpa using h2⟩
      | 1, h2 => exact Or.inr ⟨rfl, by simpa using h2⟩
      | i + 2, h2 => simp at h2
    have value : ∀ (n : NR) (t : ℝ) (i : Nat), x.plain (plainly (withNominal t v cs)).env = some (.flt n) →
        valueWith (cs ++ [.modf x]) v (s.env.length + i) t =
          ([some (PyVal.flt (PyMath.modf n).1), some (.flt (PyMath.modf n).2)][i]?).join := by
      intro n t i hn
      have := valueWith_new (cs := cs) (c := .modf x) (v := v) (t := t)
        (l := [some (PyVal.flt (PyMath.modf n).1), some (.flt (PyMath.modf n).2)]) (by
          rw [replaced_of_none rfl]
          simp only [Plain.step, hn]) i
      rw [← h.reaches.env_length] at this
      exact this
    have v0 := fun n t => value n t 0
    have v1 := fun n t => value n t 1
    simp only [Nat.add_zero, List.getElem?_cons_zero, List.getElem?_cons_succ, Option.join_some] at v0 v1
    cases b with
    | plain p =>
      simp only [SVal.seen, Follows] at f1
      cases p with
      | flt n =>
        simp only [specModf] at ha
        rcases two ha with ⟨rfl, e⟩ | ⟨rfl, e⟩ <;> cases e
        · exact f1.mono fun t ht => v0 n t ht
        · exact f1.mono fun t ht => v1 n t ht
      | _ =>
        simp only [specModf] at ha
        rcases two ha with ⟨rfl, e⟩ | ⟨rfl, e⟩ <;> cases e
    | unc q =>
      obtain ⟨g, d, g1, g2, g3, g4⟩ := f1
      simp only [PyVal.flt.injEq] at g1
      have hne := hs (g t0) q.grad (by rw [← g1]; exact hseen)
      have htr := g3.continuousAt.eventually (trunc_ev hne)
      have hm : ∀ y : ℝ, PyMath.modf (fin y) = (fin (y - truncReal y), fin (truncReal y)) := fun _ => rfl
      simp only [specModf, g1, hm] at ha
      rcases two ha with ⟨rfl, e⟩ | ⟨rfl, e⟩ <;> cases e
      · refine ⟨fun t => g t - truncReal (g t0), d, rfl, ?_, ?_, g4⟩
        · filter_upwards [g2, htr] with t h2 h3
          rw [v0 _ t h2, hm, h3]
        · exact (g3.sub_const _)
      · simp only [SVal.seen, Follows]
        filter_upwards [g2, htr] with t h2 h3
        rw [v1 _ t h2, hm, h3]

theorem Tracks.ldexp_new (h : Tracks v t0 cs s) {x : Arg NR} {i : Int}
    (hi : ∀ j, Arg.ref j ∈ (Cmd.ldexp x i).inputs → SmoothResult cs j) {k : Nat}
    (hk : s.env.length ≤ k) {a : SVal NR} (ha : (((s.step (.ldexp x i)).1.env)[k]?).join = some a) :
    Follows v t0 (valueWith (cs ++ [.ldexp x i]) v k) a.seen := by
  simp only [SState.step] at ha
  cases h1 : x.seval s.env with
  | none => rw [h1] at ha; exact (invalid_new hk ha).elim
  | some b =>
    rw [h1] at ha
    simp only at ha
    rcases hcst : b.isConst s.vars.length with _ | _
    swap
    · simp only [hcst, if_true] at ha; exact (invalid_new hk ha).elim
    simp only [hcst, Bool.false_eq_true, if_false] at ha
    have f1 := h.arg (fun j hj => hi j (by simp [Cmd.inputs, hj])) h1
    obtain ⟨rfl, hr⟩ := bind_new hk ha
    have value : ∀ (n : NR) (t : ℝ), x.plain (plainly (withNominal t v cs)).env = some (.flt n) →
        valueWith (cs ++ [.ldexp x i]) v s.env.length t = (valueOf (PyMath.ldexp n i)).map .flt := by
      intro n t hn
      have := valueWith_new (cs := cs) (c := .ldexp x i) (v := v) (t := t)
        (l := [(valueOf (PyMath.ldexp n i)).map .flt]) (by
          rw [replaced_of_none rfl]
          simp only [Plain.step, hn]) 0
      rw [Nat.add_zero, ← h.reaches.env_length] at this
      rw [this]; rfl
    cases b with
    | plain p =>
      simp only [SVal.seen, Follows] at f1
      cases p with
      | flt n =>
        simp only [specLdexp] at hr
        cases hl : PyMath.ldexp n i with
        | error e => rw [hl] at hr; cases hr
        | ok r =>
          rw [hl] at hr
          cases hr
          exact f1.mono fun t ht => by rw [value n t ht, hl]; rfl
      | _ => cases hr
    | unc q =>
      obtain ⟨g, d, g1, g2, g3, g4⟩ := f1
      simp only [PyVal.flt.injEq] at g1
      have hl : ∀ y : ℝ, PyMath.ldexp (fin y) i = .ok (fin (y * 2 ^ i)) := fun _ => rfl
      simp only [specLdexp, g1, hl] at hr
      cases hr
      refine ⟨fun t => g t * 2 ^ i, d * 2 ^ i, rfl, ?_, g3.mul_const _, ?_⟩
      · filter_upwards [g2] with t h2
        rw [value _ t h2, hl]; rfl
      · have : HasCoef (Lin.comb [(fin (2 ^ i), q.grad)]) v (2 ^ i * d + 0) :=
          (g4.smul _).add (HasCoef.zero v)
        rw [add_zero, mul_comm] at this
        exact this


theorem DiffAt.line {f : PyFn NR} {av : List (Seen NR)} {c : ℕ → ℝ} (h : DiffAt f av [] c) {i : Nat}
    (hi : i < av.length) :
    ∃ g : ℝ → ℝ, (∀ᶠ t in 𝓝 (nominalSlots av [] i),
        f (movedArgs av (fun j => if j = i then t else nominalSlots av [] j)) [] = .ok (.flt (fin (g t)))) ∧
      HasDerivAt g (c i) (nominalSlots av [] i) := by
  obtain ⟨g, hg1, hg2⟩ := h
  have hi' : i < av.length + ([] : List (String × Seen NR)).length := by simpa using hi
  set x0 : Fin (av.length + ([] : List (String × Seen NR)).length) → ℝ := fun i => nominalSlots av [] i with hx0
  have hx : Function.update x0 ⟨i, hi'⟩ (nominalSlots av [] i) = x0 := by
    have : nominalSlots av [] i = x0 ⟨i, hi'⟩ := rfl
    rw [this, Function.update_eq_self]
  have hd := hasDerivAt_update x0 ⟨i, hi'⟩ (nominalSlots av [] i)
  rw [← hx] at hg1 hg2
  refine ⟨fun t => g (Function.update x0 ⟨i, hi'⟩ t), ?_, ?_⟩
  · filter_upwards [hd.continuousAt.eventually hg1] with t ht
    refine Eq.trans ?_ ht
    unfold movedCall
    congr 1
    apply movedArgs_congr
    intro j hj
    have hj' : j < av.length + ([] : List (String × Seen NR)).length := by simpa using hj
    simp only [extendSeq, hj', dif_pos]
    by_cases e : j = i
    · subst e; simp
    · rw [Function.update_of_ne (by simpa using e)]; simp [e, hx0]
  · refine (hg2.comp_hasDerivAt _ hd).congr_deriv ?_
    simp only [ContinuousLinearMap.coe_sum', Finset.sum_apply, ContinuousLinearMap.coe_smul',
      Pi.smul_apply, ContinuousLinearMap.proj_apply, smul_eq_mul]
    rw [Finset.sum_eq_single ⟨i, hi'⟩]
    · simp
    · intro b _ hb
      simp [hb]
    · simp

theorem DiffAt.unop {op : UnOp} {x : ℝ} {D : Lin NR} {c : ℕ → ℝ}
    (h : DiffAt op.func [(.flt (fin x), some D)] [] c) : IsPartial op.func [x] 0 (c 0) := by
  obtain ⟨g, h1, h2⟩ := h.line (i := 0) (by simp)
  exact ⟨g, h1, h2⟩

theorem DiffAt.binop0 {op : BinOp} {x y : ℝ} {D : Lin NR} {B : Option (Lin NR)} {c : ℕ → ℝ}
    (h : DiffAt op.method [(.flt (fin x), some D), (.flt (fin y), B)] [] c) :
    IsPartial op.method [x, y] 0 (c 0) := by
  obtain ⟨g, h1, h2⟩ := h.line (i := 0) (by simp)
  refine ⟨g, ?_, h2⟩
  cases B <;> exact h1

theorem DiffAt.binop1 {op : BinOp} {x y : ℝ} {D : Lin NR} {A : Option (Lin NR)} {c : ℕ → ℝ}
    (h : DiffAt op.method [(.flt (fin x), A), (.flt (fin y), some D)] [] c) :
    IsPartial op.method [x, y] 1 (c 1) := by
  obtain ⟨g, h1, h2⟩ := h.line (i := 1) (by simp)
  refine ⟨g, ?_, h2⟩
  cases A <;> exact h1

theorem Tracks.unop_new (h : Tracks v t0 cs s) {op : UnOp} {x : Arg NR} (hs : SmoothCmd cs (.unop op x))
    (hi : ∀ j, Arg.ref j ∈ (Cmd.unop op x).inputs → SmoothResult cs j) {k : Nat}
    (hk : s.env.length ≤ k) {a : SVal NR} (ha : (((s.step (.unop op x)).1.env)[k]?).join = some a) :
    Follows v t0 (valueWith (cs ++ [.unop op x]) v k) a.seen := by
  simp only [SState.step] at ha
  cases h1 : x.sevalUnc s.env with
  | none => rw [h1] at ha; exact (invalid_new hk ha).elim
  | some q =>
    rw [h1] at ha
    simp only at ha
    have h2 := seval_of_sevalUnc h1
    obtain ⟨rfl, hr⟩ := bind_new hk ha
    obtain ⟨s1, f1⟩ := h.args (xs := [x]) (as := [.unc q]) (fun j hj => hi j hj) (by simp only [evalArgs, h2])
    obtain ⟨γ, γ', c1, e1⟩ := args_curves f1
    obtain ⟨c, hd⟩ := hs _ s1.1
    have c2 : Curves v t0 (([] : List (String × Seen NR)).map Prod.snd) 0 0 := fun _ => ⟨rfl, rfl⟩
    have hq : q.nom = fin (γ 0 t0) := by simpa using c1.1
    have hdoc := docCall_seen (op.wrapDef) [.unc q] []
    rw [hr] at hdoc
    have hfol := docCall_follows c1 c2 (fun _ => ⟨c, hd, ?_, ?_⟩) hdoc
    · refine hfol.congr ?_
      filter_upwards [e1] with t h3
      have hp : x.plain (plainly (withNominal t v cs)).env = some (.flt (fin (γ 0 t))) := by
        cases hx : x.plain (plainly (withNominal t v cs)).env with
        | none => simp [evalArgs, hx] at h3
        | some w => simpa [evalArgs, hx, movedArgs, SVal.seen] using h3
      have := valueWith_new (cs := cs) (c := .unop op x) (v := v) (t := t)
        (l := [valueOf (plainUnop op (.flt (fin (γ 0 t))))]) (by
          rw [replaced_of_none rfl]
          simp only [Plain.step, hp, Option.bind_some]) 0
      rw [Nat.add_zero, ← h.reaches.env_length] at this
      rw [this]; rfl
    · intro i b hb hb'
      cases i with
      | zero =>
        have hd' : DiffAt op.func [(.flt (fin (γ 0 t0)), some q.grad)] [] c := by rw [← hq]; exact hd
        obtain ⟨g, g1, g2⟩ := hd'.unop
        have key : ∀ {u w : NR}, op.func [.flt u] [] = .ok (.flt w) → op.onFloat u = .ok w := by
          intro u w h
          simp only [UnOp.func] at h
          cases hu : op.onFloat u with
          | error e => simp [hu, Except.map] at h
          | ok z => simp [hu, Except.map] at h; rw [h]
        have := UnOp.deriv_true op (g1.mono fun t ht => key ht) g2
        change op.deriv q.nom = _
        rw [hq]; exact this
      | succ i => simp at hb
    · intro i p hp; simp at hp

theorem Tracks.binop_new (h : Tracks v t0 cs s) {op : BinOp} {x y : Arg NR}
    (hs : SmoothCmd cs (.binop op x y))
    (hi : ∀ j, Arg.ref j ∈ (Cmd.binop op x y).inputs → SmoothResult cs j) {k : Nat}
    (hk : s.env.length ≤ k) {r : SVal NR} (ha : (((s.step (.binop op x y)).1.env)[k]?).join = some r) :
    Follows v t0 (valueWith (cs ++ [.binop op x y]) v k) r.seen := by
  simp only [SState.step] at ha
  cases h1 : x.seval s.env with
  | none => rw [h1] at ha; exact (invalid_new hk ha).elim
  | some a =>
    cases h2 : y.seval s.env with
    | none => rw [h1, h2] at ha; exact (invalid_new hk ha).elim
    | some b =>
      rw [h1, h2] at ha
      simp only at ha
      by_cases hu : (a.isUnc || b.isUnc) = true
      swap
      · rw [if_neg hu] at ha; exact (invalid_new hk ha).elim
      rw [if_pos hu] at ha
      obtain ⟨rfl, hr⟩ := bind_new hk ha
      obtain ⟨s1, f1⟩ := h.args (xs := [x, y]) (as := [a, b]) (fun j hj => hi j hj)
        (by simp only [evalArgs, h1, h2])
      obtain ⟨γ, γ', c1, e1⟩ := args_curves f1
      obtain ⟨x0, y0, c, ex, ey, hd, hm⟩ := hs _ _ s1.1 s1.2.1
      have c2 : Curves v t0 (([] : List (String × Seen NR)).map Prod.snd) 0 0 := fun _ => ⟨rfl, rfl⟩
      obtain ⟨A, hA⟩ : ∃ A, a.seen = (.flt (fin x0), A) := ⟨a.seen.2, by rw [← ex]⟩
      obtain ⟨B, hB⟩ : ∃ B, b.seen = (.flt (fin y0), B) := ⟨b.seen.2, by rw [← ey]⟩
      rw [hA, hB] at hd
      rw [hB] at hm
      simp only [List.map_cons, List.map_nil, hA, hB] at c1 e1
      obtain ⟨G, hG1, hG2⟩ := hd.along c1 c2
      have h0 := hG1.self_of_nhds
      rw [c1.movedArgs] at h0
      have hz : op.onFloats (fin x0) (fin y0) = .ok (.flt (fin (G t0))) := method_onFloats h0
      have hu' : A ≠ none ∨ B ≠ none := by
        have ea : a.seen.2.isSome = a.isUnc := a.seen_isSome
        have eb : b.seen.2.isSome = b.isUnc := b.seen_isSome
        rw [hA] at ea; rw [hB] at eb
        rw [← ea, ← eb] at hu
        cases A <;> cases B <;> simp_all
      have d0 : A ≠ none → op.deriv0 (fin x0) (fin y0) = .ok (fin (c 0)) := by
        intro hA'
        cases A with
        | none => exact absurd rfl hA'
        | some D => exact isPartial_method0 hd.binop0
      have d1 : B ≠ none → op.deriv1 (fin x0) (fin y0) = .ok (fin (c 1)) := by
        intro hB'
        by_cases hop : op = .mod
        · subst hop; exact hm rfl hB'
        · cases B with
          | none => exact absurd rfl hB'
          | some D => exact isPartial_method1 hop hd.binop1
      obtain ⟨-, e2⟩ := specBinop_terms hA hB hu' hz d0 d1
      rw [e2] at hr
      cases hr
      simp only [List.length_cons, List.length_nil, Finset.sum_range_succ, Finset.sum_range_zero] at hG2
      refine ⟨G, _, rfl, ?_, hG2, ?_⟩
      · filter_upwards [e1, hG1] with t h3 h4
        have hp : ∃ w1 w2, x.plain (plainly (withNominal t v cs)).env = some w1 ∧
            y.plain (plainly (withNominal t v cs)).env = some w2 ∧
            movedArgs [(.flt (fin x0), A), (.flt (fin y0), B)] (fun i => γ i t) = [w1, w2] := by
          cases hx : x.plain (plainly (withNominal t v cs)).env with
          | none => simp [evalArgs, hx] at h3
          | some w1 =>
            cases hy : y.plain (plainly (withNominal t v cs)).env with
            | none => simp [evalArgs, hx, hy] at h3
            | some w2 =>
              refine ⟨w1, w2, rfl, rfl, ?_⟩
              simp only [evalArgs, hx, hy, Option.some.injEq] at h3
              exact h3.symm
        obtain ⟨w1, w2, p1, p2, p3⟩ := hp
        rw [p3] at h4
        have := valueWith_new (cs := cs) (c := .binop op x y) (v := v) (t := t)
          (l := [valueOf (plainBinop op w1 w2)]) (by
            rw [replaced_of_none rfl]
            simp only [Plain.step, p1, p2]) 0
        rw [Nat.add_zero, ← h.reaches.env_length] at this
        rw [this]
        obtain ⟨u1, u2, rfl, rfl⟩ : ∃ u1 u2, w1 = .flt u1 ∧ w2 = .flt u2 := by
          have : ∃ u1 u2, movedArgs [(.flt (fin x0), A), (.flt (fin y0), B)] (fun i => γ i t) = [.flt u1, .flt u2] := by
            cases A <;> cases B <;> exact ⟨_, _, rfl⟩
          obtain ⟨u1, u2, e⟩ := this
          rw [p3] at e
          simp only [List.cons.injEq, and_true] at e
          exact ⟨u1, u2, e⟩
        have h5 := method_onFloats (op := op) h4
        simp [plainBinop, h5, valueOf]
      · have t0' : HasCoef (Lin.comb (term (fin (c 0)) A)) v (c 0 * γ' 0) := by
          cases A with
          | none =>
            have : γ' 0 = 0 := c1.2.1
            rw [this, mul_zero]; exact HasCoef.zero v
          | some D =>
            have := (c1.2.2.1.smul (c 0)).add (HasCoef.zero v)
            rw [add_zero] at this
            exact this
        have c1' : Curves v t0 [(.flt (fin y0), B)] (fun i => γ (i + 1)) (fun i => γ' (i + 1)) := by
          cases A with
          | none => exact c1.2.2
          | some D => exact c1.2.2.2
        have t1' : HasCoef (Lin.comb (term (fin (c 1)) B)) v (c 1 * γ' 1) := by
          cases B with
          | none =>
            have : γ' 1 = 0 := c1'.2.1
            rw [this, mul_zero]; exact HasCoef.zero v
          | some D =>
            have := (c1'.2.2.1.smul (c 1)).add (HasCoef.zero v)
            rw [add_zero] at this
            exact this
        have := t0'.append t1'
        rw [zero_add, add_zero]
        exact this

/-- The number of variables. -/
theorem vars_step {c : Cmd NR} (hc : c.isCopy = false) (h : s.vars.length = (variableNominals cs).length) :
    (s.step c).1.vars.length = (variableNominals (cs ++ [c])).length := by
  have none : c.created = none → (s.step c).1.vars.length = s.vars.length →
      (s.step c).1.vars.length = (variableNominals (cs ++ [c])).length := by
    intro h1 h2
    rw [h2, h]
    simp [variableNominals, h1]
  have bind : ∀ r, (s.bind r).1.vars = s.vars := by
    intro r
    rcases r with e | v
    · rfl
    · rcases v with q | p
      · rfl
      · cases p <;> rfl
  by_cases hr : c.isRead = true
  · refine none ?_ (by rw [SState.step_read s hr])
    cases c <;> first | rfl | cases hr
  cases c <;> simp only [Cmd.isCopy, Bool.true_eq_false, Cmd.isRead, not_true_eq_false] at hc hr
  case ufloat n std label =>
    have hcr : (Cmd.ufloat n std label).created = if specBadStd std = true then Option.none else some n := rfl
    by_cases hb : specBadStd std = true
    · exact none (by rw [hcr, if_pos hb]) (by simp [SState.step, hb])
    · rw [if_neg hb] at hcr
      simp [SState.step, hb, variableNominals, hcr, h]
  case wrap => exact none rfl rfl
  all_goals
    refine none rfl ?_
    simp only [SState.step]
    repeat' split
    all_goals first | rfl | (rw [bind]) | simp

theorem Tracks.nil : Tracks v t0 [] SState.init := by
  refine ⟨Reaches.nil, rfl, ?_⟩
  intro k _ a ha
  simp [SState.init] at ha

theorem Tracks.snoc (h : Tracks v t0 cs s) {c : Cmd NR} (hc : c.isCopy = false)
    (ht : ∀ n', (variableNominals (cs ++ [c]))[v]? = some n' → n' = fin t0) :
    Tracks v t0 (cs ++ [c]) (s.step c).1 := by
  have hr := (h.reaches.snoc c hc).2
  refine ⟨hr, vars_step hc h.vars, ?_⟩
  intro k hsm a ha
  obtain ⟨l, hl⟩ : ∃ l, (s.step c).1.env = s.env ++ l := by
    obtain ⟨s', h1, h2⟩ := h.reaches.run [c]
    have h1' := h1
    cases h1' with
    | cons e1 e2 =>
      cases e2
      have := specStep_eq hc e1
      rw [← this]
      exact h1.env
  rcases hsm.inv with hold | ⟨h1, h2, h3⟩
  · have hlt := hold.lt
    rw [← h.reaches.env_length] at hlt
    rw [hl, List.getElem?_append_left hlt] at ha
    refine (h.follows k hold a ha).congr (Eventually.of_forall fun t => ?_)
    exact valueWith_old hold.lt t
  · rw [← h.reaches.env_length] at h1
    cases c with
    | ufloat n std label => exact h.ufloat_new ht h2 h1 ha
    | call f args kwargs => exact h.call_new h2 h3 h1 ha
    | unop op x => exact h.unop_new h2 h3 h1 ha
    | binop op x y => exact h.binop_new h2 h3 h1 ha
    | modf x => exact h.modf_new h2 h3 h1 ha
    | ldexp x i => exact h.ldexp_new h3 h1 ha
    | lcst f args kwargs => exact h.lcst_new h2 h3 h1 ha
    | _ => exact h2.elim

theorem Tracks.exists {v : Nat} {t0 : ℝ} (cs : List (Cmd NR)) (hc : ∀ c ∈ cs, c.isCopy = false)
    (ht : ∀ n', (variableNominals cs)[v]? = some n' → n' = fin t0) : ∃ s, Tracks v t0 cs s := by
  induction cs using List.reverseRecOn with
  | nil => exact ⟨_, Tracks.nil⟩
  | append_singleton cs c ih =>
    obtain ⟨s, h⟩ := ih (fun c hc' => hc c (by simp [hc'])) (by
      intro n' hn
      apply ht
      unfold variableNominals at hn ⊢
      rw [List.filterMap_append]
      have hlt : v < (cs.filterMap Cmd.created).length := by
        by_contra hge
        rw [List.getElem?_eq_none (by omega)] at hn
        cases hn
      rw [List.getElem?_append_left hlt]
      exact hn)
    exact ⟨_, h.snoc (hc c (by simp)) ht⟩

end

end Unc
