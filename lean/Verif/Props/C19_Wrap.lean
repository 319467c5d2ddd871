import Verif.Lemmas.OpSpec
import Verif.Lemmas.Shape4
import Verif.Spec.Calls
import Verif.Py.ZN

/-
C19: derivatives used by wrapped functions, whatever the history.
C20: passing an argument by keyword or by position is the same.
C22: one-shot and infinite iterables of derivatives.
-/

namespace Unc

set_option linter.unusedSectionVars false
set_option autoImplicit false

variable {F : Type}

section
variable [PyFloat F]

/-- What can be observed of a value of the specification. -/
def SVal.seen : SVal F → Seen F
  | .unc q => (.flt q.nom, some q.grad)
  | .plain v => (v, none)

theorem SVal.seen_fst (a : SVal F) : a.seen.1 = a.nominal := by cases a <;> rfl

theorem SVal.seen_isSome (a : SVal F) : a.seen.2.isSome = a.isUnc := by cases a <;> rfl

theorem docPosTerms_seen (df : WrapDef F) (av : List (PyVal F)) (kv : KwArgs F) (pos : Nat)
    (args : List (SVal F)) :
    docPosTerms df av kv pos (args.map SVal.seen) = specPosTerms df av kv pos args := by
  induction args generalizing pos with
  | nil => rfl
  | cons a args ih =>
    cases a with
    | plain v => exact ih (pos + 1)
    | unc q =>
      simp only [List.map_cons, SVal.seen, docPosTerms, specPosTerms, ih]
      cases df.specPos pos av kv with
      | error e => rfl
      | ok c => cases specPosTerms df av kv (pos + 1) args <;> rfl

theorem docKwTerms_seen (df : WrapDef F) (av : List (PyVal F)) (kv : KwArgs F)
    (args : List (String × SVal F)) :
    docKwTerms df av kv (args.map fun p => (p.1, p.2.seen)) = specKwTerms df av kv args := by
  induction args with
  | nil => rfl
  | cons a args ih =>
    obtain ⟨name, a⟩ := a
    cases a with
    | plain v => exact ih
    | unc q =>
      rw [List.map_cons]
      change (do
        let c ← df.specKw name av kv
        let l ← docKwTerms df av kv (args.map fun (p : String × SVal F) => (p.1, p.2.seen))
        .ok ((c, q.grad) :: l)) = _
      simp only [specKwTerms, ih]
      cases df.specKw name av kv with
      | error e => rfl
      | ok c => cases specKwTerms df av kv args <;> rfl

theorem anyUnc_seen (args : List (SVal F)) (kwargs : List (String × SVal F)) :
    anyUnc (args.map SVal.seen) (kwargs.map fun p => (p.1, p.2.seen)) =
      !(args.all (fun a => !a.isUnc) && kwargs.all (fun p => !p.2.isUnc)) := by
  have h1 : (args.map SVal.seen).any (fun a => a.2.isSome) = !args.all (fun a => !a.isUnc) := by
    induction args with
    | nil => rfl
    | cons a l ih => simp only [List.map_cons, List.any_cons, ih, List.all_cons, SVal.seen_isSome]; simp
  have h2 : (kwargs.map fun p => (p.1, p.2.seen)).any (fun p => p.2.2.isSome) =
      !kwargs.all (fun p => !p.2.isUnc) := by
    induction kwargs with
    | nil => rfl
    | cons a l ih => simp only [List.map_cons, List.any_cons, ih, List.all_cons, SVal.seen_isSome]; simp
  unfold anyUnc
  rw [h1, h2]
  simp

theorem docCall_seen (df : WrapDef F) (args : List (SVal F)) (kwargs : List (String × SVal F)) :
    docCall df (args.map SVal.seen) (kwargs.map fun p => (p.1, p.2.seen)) =
      (specCall df args kwargs).map SVal.seen := by
  have e1 : (args.map SVal.seen).map Prod.fst = args.map SVal.nominal := by
    rw [List.map_map]; exact List.map_congr_left (fun a _ => a.seen_fst)
  have e2 : (kwargs.map fun p => (p.1, p.2.seen)).map (fun p => (p.1, p.2.1)) =
      kwargs.map (fun p => (p.1, p.2.nominal)) := by
    rw [List.map_map]
    exact List.map_congr_left (fun a _ => by simp [SVal.seen_fst])
  simp only [docCall, e1, e2, anyUnc_seen, docPosTerms_seen, docKwTerms_seen, specCall]
  cases df.f (args.map SVal.nominal) (kwargs.map (fun p => (p.1, p.2.nominal))) with
  | error e => rfl
  | ok v =>
    simp only [bind, Except.bind]
    cases (args.all (fun a => !a.isUnc) && kwargs.all (fun p => !p.2.isUnc)) with
    | true => rfl
    | false =>
      simp only [Bool.not_false, Bool.true_eq_false, if_false, Bool.false_eq_true]
      cases v.floatLike with
      | false => rfl
      | true =>
        simp only [Bool.true_eq_false, if_false, Bool.not_true, Bool.false_eq_true]
        cases specPosTerms df (args.map SVal.nominal) (kwargs.map (fun p => (p.1, p.2.nominal))) 0 args with
        | error e => rfl
        | ok l1 =>
          simp only []
          cases specKwTerms df (args.map SVal.nominal) (kwargs.map (fun p => (p.1, p.2.nominal))) kwargs with
          | error e => rfl
          | ok l2 =>
            simp only []
            cases v.toFloat <;> rfl

end

variable [PyMath F] [ExactLin F] [Halts F]

omit [Halts F] in
theorem Reaches.seen {cs : List (Cmd F)} {s : SState F} (h : Reaches cs s) {x : Arg F} {a : Seen F}
    (hx : SeenAs cs x a) : ∃ v, x.seval s.env = some v ∧ v.seen = a := by
  obtain ⟨h1, h2⟩ := hx
  rw [(h.read (c := .nominal x) rfl).1] at h1
  simp only [SState.step] at h1
  cases hv : x.seval s.env with
  | none => rw [hv] at h1; simp [SState.invalid] at h1
  | some v =>
    rw [hv] at h1
    simp only [Out.val.injEq] at h1
    refine ⟨v, rfl, ?_⟩
    obtain ⟨n, o⟩ := a
    simp only at h1 h2
    cases o with
    | none =>
      simp only at h2
      rw [(h.read (c := .derivatives x) rfl).1] at h2
      simp only [SState.step, SState.read, Arg.sevalUnc, hv] at h2
      cases v with
      | unc q => simp at h2
      | plain c => simp [SVal.seen, ← h1, SVal.nominal]
    | some D =>
      simp only at h2
      rw [(h.read (c := .derivatives x) rfl).1] at h2
      simp only [SState.step, SState.read, Arg.sevalUnc, hv] at h2
      cases v with
      | unc q =>
        simp only [Out.dict.injEq] at h2
        simp [SVal.seen, ← h1, SVal.nominal, h2]
      | plain c => simp [SState.invalid] at h2

omit [Halts F] in
theorem Reaches.seenAs {cs : List (Cmd F)} {s : SState F} (h : Reaches cs s) {x : Arg F} {v : SVal F}
    (hx : x.seval s.env = some v) : SeenAs cs x v.seen := by
  refine ⟨?_, ?_⟩
  · rw [(h.read (c := .nominal x) rfl).1]
    simp only [SState.step, hx, SVal.seen_fst]
  · cases v with
    | unc q =>
      simp only [SVal.seen]
      rw [(h.read (c := .derivatives x) rfl).1]
      simp only [SState.step, SState.read, Arg.sevalUnc, hx]
    | plain c =>
      simp only [SVal.seen]
      rw [(h.read (c := .derivatives x) rfl).1]
      simp only [SState.step, SState.read, Arg.sevalUnc, hx]
      rfl

omit [Halts F] in
theorem Reaches.allSeen {cs : List (Cmd F)} {s : SState F} (h : Reaches cs s) {xs : List (Arg F)}
    {as : List (Seen F)} (hx : AllSeenAs cs xs as) :
    ∃ vs, evalArgs (Arg.seval s.env) xs = some vs ∧ vs.map SVal.seen = as := by
  induction xs generalizing as with
  | nil =>
    cases as with
    | nil => exact ⟨[], rfl, rfl⟩
    | cons a as => exact hx.elim
  | cons x xs ih =>
    cases as with
    | nil => exact hx.elim
    | cons a as =>
      obtain ⟨v, h1, h2⟩ := h.seen hx.1
      obtain ⟨vs, h3, h4⟩ := ih hx.2
      exact ⟨v :: vs, by simp only [evalArgs, h1, h3], by simp [h2, h4]⟩

omit [Halts F] in
theorem Reaches.allSeenKw {cs : List (Cmd F)} {s : SState F} (h : Reaches cs s)
    {xs : List (String × Arg F)} {as : List (String × Seen F)} (hx : AllSeenAsKw cs xs as) :
    ∃ vs, evalArgs (Arg.sevalKw s.env) xs = some vs ∧ vs.map (fun p => (p.1, p.2.seen)) = as := by
  induction xs generalizing as with
  | nil =>
    cases as with
    | nil => exact ⟨[], rfl, rfl⟩
    | cons a as => exact hx.elim
  | cons x xs ih =>
    cases as with
    | nil => exact hx.elim
    | cons a as =>
      obtain ⟨k, x⟩ := x
      obtain ⟨k', a⟩ := a
      obtain ⟨hk, h1, h2⟩ := hx
      subst hk
      obtain ⟨v, h3, h4⟩ := h.seen h1
      obtain ⟨vs, h5, h6⟩ := ih h2
      exact ⟨(k, v) :: vs, by simp only [evalArgs, Arg.sevalKw, h3, Option.map_some, h5], by simp [h4, h6]⟩

theorem Reaches.fns {cs : List (Cmd F)} {s : SState F} (h : Reaches cs s) : s.fns = fnsOf cs := by
  obtain ⟨-, g, h⟩ := h
  rw [h.fns, fnsOf_after]

omit [Halts F] in
/-- The result of a command that binds the value `r`. -/
theorem Reaches.results {cs : List (Cmd F)} {s : SState F} (h : Reaches cs s) {c : Cmd F}
    (hc : c.isCopy = false) {r : PyRes (SVal F)} (hs : s.step c = s.bind r) :
    Results cs c (r.map SVal.seen) := by
  obtain ⟨h1, h2⟩ := h.snoc c hc
  rw [hs] at h1 h2
  have hn : ∀ v, (next cs).seval (s.env ++ [some v]) = some v := by
    intro v
    simp [next, Arg.seval, ← h.env_length]
  cases r with
  | error e => exact h1
  | ok v =>
    cases v with
    | unc q => exact ⟨h1, h2.seenAs (v := .unc q) (hn _)⟩
    | plain c =>
      cases c with
      | notImpl => exact h1
      | flt x => exact ⟨h1, h2.seenAs (v := .plain (.flt x)) (hn _)⟩
      | cplx => exact ⟨h1, h2.seenAs (v := .plain .cplx) (hn _)⟩
      | other n => exact ⟨h1, h2.seenAs (v := .plain (.other n)) (hn _)⟩

/-- **C19**. After any history of commands (and in particular of calls of the same function), the
result of the call of a wrapped function is the one given by the documented derivatives: the `i`-th
supplied derivative or else numerical differentiation for positional arguments (`WrapDef.specPos`),
and the documented choice for keyword arguments (`WrapDef.specKw`). -/
theorem C19_call (cs : List (Cmd F)) (f : Nat) (df : WrapDef F) (hf : (fnsOf cs)[f]? = some df)
    (args : List (Arg F)) (kwargs : List (String × Arg F)) (av : List (Seen F))
    (kv : List (String × Seen F)) (ha : AllSeenAs cs args av) (hk : AllSeenAsKw cs kwargs kv) :
    Results cs (.call f args kwargs) (docCall df av kv) := by
  obtain ⟨s, hs⟩ := Reaches.exists cs
  obtain ⟨vs, h1, rfl⟩ := hs.allSeen ha
  obtain ⟨ks, h2, rfl⟩ := hs.allSeenKw hk
  rw [docCall_seen]
  refine hs.results rfl ?_
  rw [← hs.fns] at hf
  simp only [SState.step, hf, h1, h2]

/-! The derivative *functions* themselves: for every float semantics. -/

omit [ExactLin F] in
/-- **C19**, for every float semantics: after any history, the derivatives that a wrapped function
would use for position `i` and for keyword `name` are the documented ones. -/
theorem C19_derivative_functions (cs : List (Cmd F)) (f : Nat) (df : WrapDef F)
    (hf : (fnsOf cs)[f]? = some df) (i : Nat) (name : String) :
    ∃ wf, (after cs).w.wraps[f]? = some wf ∧ (wf.posDeriv i).2 = .ok (df.specPos i) ∧
      (wf.kwDeriv name).2 = df.specKw name := by
  rw [← fnsOf_after, List.getElem?_map, Option.map_eq_some_iff] at hf
  obtain ⟨wf, h1, rfl⟩ := hf
  have hok := (MShape.after cs).shape.wraps f wf h1
  obtain ⟨wf1, a1, -⟩ := Wrapped.posDeriv_ok hok i
  obtain ⟨wf2, b1, -⟩ := Wrapped.kwDeriv_ok hok name
  exact ⟨wf, h1, by rw [a1], by rw [b1]⟩

/-! Example: f(a, b, *, c) = a + 10*b + 100*c, with a supplied derivative for `b` and for `c` only,
called with different argument patterns. -/

/-- The function of the example. -/
def exF : WrapDef ZN where
  f
    | [.flt a, .flt b], [("c", .flt c)] => .ok (.flt (a + .fin 10 * b + .fin 100 * c))
    | [.flt a], [("b", .flt b), ("c", .flt c)] => .ok (.flt (a + .fin 10 * b + .fin 100 * c))
    | [.flt a, .flt b], [] => .ok (.flt (a + .fin 10 * b))
    | [.flt a], [("b", .flt b)] => .ok (.flt (a + .fin 10 * b))
    | _, _ => .error .typeError
  derivativesArgs := .finite [none, some (fun _ _ => .ok (.fin 10))]
  derivativesKwargs := [("c", some (fun _ _ => .ok (.fin 100)))]
  argspec := some ["a", "b"]

def exC19 : List (Cmd ZN) :=
  [.wrap exF, .ufloat (.fin 3) (.fin 1) none, .ufloat (.fin 5) (.fin 2) none,
   .call 18 [.const (.flt (.fin 1)), .ref 0] [("c", .ref 1)]]

example : (fnsOf exC19)[18]? = some exF ∧
    SeenAs exC19 (.ref 0) (.flt (.fin 3), some (fun v => [(0, ZN.fin 1)].lookup v)) ∧
    SeenAs exC19 (.ref 1) (.flt (.fin 5), some (fun v => [(1, ZN.fin 1)].lookup v)) ∧
    SeenAs exC19 (.const (.flt (.fin 1))) (.flt (.fin 1), none) ∧
    SeenAs exC19 (.ref 2) (.flt (.fin 531), some (fun v => [(1, ZN.fin 100), (0, ZN.fin 10)].lookup v)) :=
  ⟨rfl, ⟨rfl, rfl⟩, ⟨rfl, rfl⟩, ⟨rfl, rfl⟩, ⟨rfl, rfl⟩⟩

/-! ### C20 -/

section
variable {F : Type} [PyFloat F]

/-- A function of arguments whose result is the same if the last of `n + 1` positional arguments is
given by keyword (as the first keyword argument) instead. -/
def SameByKeyword {α : Type} (n : Nat) (name : String) (f : List (PyVal F) → KwArgs F → α) : Prop :=
  ∀ (a : List (PyVal F)) (v : PyVal F) (k : KwArgs F), a.length = n → f (a ++ [v]) k = f a ((name, v) :: k)

theorem partialDerivative_pos_last {f : PyFn F} {n : Nat} {name : String}
    (h : SameByKeyword n name f) {a : List (PyVal F)} (ha : a.length = n) (v : PyVal F) (k : KwArgs F) :
    partialDerivative f (.pos n) (a ++ [v]) k = partialDerivative f (.kw name) a ((name, v) :: k) := by
  subst ha
  have hs : ∀ w, (a ++ [v]).set a.length w = a ++ [w] := by
    intro w; simp [List.set_append]
  have hl : (a ++ [v])[a.length]? = some v := by simp
  have hk : ((name, v) :: k).lookup name = some v := by simp [List.lookup]
  have hset : ∀ w, setKw ((name, v) :: k) name w = (name, w) :: k := by intro w; simp [setKw]
  simp only [partialDerivative, hl, hk]
  cases v with
  | flt x => simp only [hs, hset, h a _ k rfl]
  | cplx => rfl
  | other n => rfl
  | notImpl => rfl

theorem partialDerivative_pos_other {f : PyFn F} {n i : Nat} {name : String} (hi : i < n)
    (h : SameByKeyword n name f) {a : List (PyVal F)} (ha : a.length = n) (v : PyVal F) (k : KwArgs F) :
    partialDerivative f (.pos i) (a ++ [v]) k = partialDerivative f (.pos i) a ((name, v) :: k) := by
  subst ha
  have hs : ∀ w, (a ++ [v]).set i w = a.set i w ++ [v] := by
    intro w; rw [List.set_append]; simp [hi]
  have hl : (a ++ [v])[i]? = a[i]? := List.getElem?_append_left hi
  simp only [partialDerivative, hl]
  cases a[i]? with
  | none => rfl
  | some x =>
    cases x with
    | flt y =>
      simp only [hs]
      rw [h (a.set i _) v k (by simp), h (a.set i _) v k (by simp)]
    | cplx => rfl
    | other n => rfl
    | notImpl => rfl

theorem partialDerivative_kw_other {f : PyFn F} {n : Nat} {name m : String} (hm : m ≠ name)
    (h : SameByKeyword n name f) {a : List (PyVal F)} (ha : a.length = n) (v : PyVal F) (k : KwArgs F) :
    partialDerivative f (.kw m) (a ++ [v]) k = partialDerivative f (.kw m) a ((name, v) :: k) := by
  have hl : ((name, v) :: k).lookup m = k.lookup m := by
    have : (m == name) = false := by simpa using hm
    simp [List.lookup, this]
  have hs : ∀ w, setKw ((name, v) :: k) m w = (name, v) :: setKw k m w := by
    intro w
    have : ¬ name = m := fun e => hm e.symm
    simp [setKw, this]
  simp only [partialDerivative, hl, hs, h a v _ ha]

/-- The supplied derivatives have the same property. -/
structure DerivsSameByKeyword (n : Nat) (name : String) (df : WrapDef F) : Prop where
  args : ∀ i d, df.derivativesArgs.chained i = some d → SameByKeyword n name d
  kwargs : ∀ m d, df.derivativesKwargs.lookup m = some (some d) → SameByKeyword n name d

theorem specPos_same {df : WrapDef F} {n i : Nat} {name : String} (hi : i < n)
    (h : SameByKeyword n name df.f) (hd : DerivsSameByKeyword n name df) {a : List (PyVal F)}
    (ha : a.length = n) (v : PyVal F) (k : KwArgs F) :
    df.specPos i (a ++ [v]) k = df.specPos i a ((name, v) :: k) := by
  rw [chained_specPos]
  cases hc : df.derivativesArgs.chained i with
  | none => exact partialDerivative_pos_other hi h ha v k
  | some d => exact hd.args i d hc a v k ha

theorem specPos_last {df : WrapDef F} {n : Nat} {name : String}
    (h : SameByKeyword n name df.f) (hd : DerivsSameByKeyword n name df) {names : List String}
    (hn : df.argspec = some names) (hi : names.idxOf? name = some n) {a : List (PyVal F)}
    (ha : a.length = n) (v : PyVal F) (k : KwArgs F) :
    df.specPos n (a ++ [v]) k = df.specKw name a ((name, v) :: k) := by
  simp only [WrapDef.specKw, hn, hi]
  rw [chained_specPos, chained_specParam]
  cases hc : df.derivativesArgs.chained n with
  | none => exact partialDerivative_pos_last h ha v k
  | some d => exact hd.args n d hc a v k ha

theorem specKw_same {df : WrapDef F} {n : Nat} {name m : String} (hm : m ≠ name)
    (h : SameByKeyword n name df.f) (hd : DerivsSameByKeyword n name df) {a : List (PyVal F)}
    (ha : a.length = n) (v : PyVal F) (k : KwArgs F) :
    df.specKw m (a ++ [v]) k = df.specKw m a ((name, v) :: k) := by
  have hkey : df.specKeyword m (a ++ [v]) k = df.specKeyword m a ((name, v) :: k) := by
    unfold WrapDef.specKeyword
    cases hl : df.derivativesKwargs.lookup m with
    | none => exact partialDerivative_kw_other hm h ha v k
    | some o =>
      cases o with
      | none => exact partialDerivative_kw_other hm h ha v k
      | some d => exact hd.kwargs m d hl a v k ha
  unfold WrapDef.specKw
  cases df.argspec with
  | none => exact hkey
  | some names =>
    simp only []
    cases names.idxOf? m with
    | none => exact hkey
    | some i =>
      simp only []
      rw [chained_specParam]
      cases hc : df.derivativesArgs.chained i with
      | none => exact partialDerivative_kw_other hm h ha v k
      | some d => exact hd.args i d hc a v k ha

theorem docPosTerms_append (df : WrapDef F) (av : List (PyVal F)) (kv : KwArgs F) (pos : Nat)
    (l : List (Seen F)) (x : Seen F) :
    docPosTerms df av kv pos (l ++ [x]) = (do
      let l1 ← docPosTerms df av kv pos l
      let l2 ← docPosTerms df av kv (pos + l.length) [x]
      .ok (l1 ++ l2)) := by
  induction l generalizing pos with
  | nil =>
    simp only [List.nil_append, List.length_nil, Nat.add_zero]
    change _ = Except.bind (docPosTerms df av kv pos [x]) (fun l2 => Except.ok ([] ++ l2))
    cases docPosTerms df av kv pos [x] <;> rfl
  | cons a l ih =>
    obtain ⟨v, o⟩ := a
    have hlen : pos + (l.length + 1) = pos + 1 + l.length := by omega
    cases o with
    | none => simp only [List.cons_append, docPosTerms, ih, List.length_cons, hlen]
    | some D =>
      simp only [List.cons_append, docPosTerms, ih, List.length_cons, hlen]
      cases df.specPos pos av kv with
      | error e => rfl
      | ok c =>
        cases docPosTerms df av kv (pos + 1) l with
        | error e => rfl
        | ok l1 =>
          simp only [bind, Except.bind]
          generalize docPosTerms df av kv (pos + 1 + l.length) [x] = r
          cases r <;> rfl

theorem docPosTerms_congr (df : WrapDef F) {av av' : List (PyVal F)} {kv kv' : KwArgs F} (pos n : Nat)
    (l : List (Seen F)) (hl : pos + l.length ≤ n)
    (h : ∀ i, i < n → df.specPos i av kv = df.specPos i av' kv') :
    docPosTerms df av kv pos l = docPosTerms df av' kv' pos l := by
  induction l generalizing pos with
  | nil => rfl
  | cons a l ih =>
    obtain ⟨v, o⟩ := a
    simp only [List.length_cons] at hl
    cases o with
    | none => exact ih (pos + 1) (by omega)
    | some D => simp only [docPosTerms, h pos (by omega), ih (pos + 1) (by omega)]

theorem docKwTerms_congr (df : WrapDef F) {av av' : List (PyVal F)} {kv kv' : KwArgs F}
    (l : List (String × Seen F))
    (h : ∀ m, m ∈ l.map Prod.fst → df.specKw m av kv = df.specKw m av' kv') :
    docKwTerms df av kv l = docKwTerms df av' kv' l := by
  induction l with
  | nil => rfl
  | cons a l ih =>
    obtain ⟨m, v, o⟩ := a
    have ih' := ih (fun m hm => h m (by simp at hm ⊢; exact Or.inr hm))
    cases o with
    | none => exact ih'
    | some D => simp only [docKwTerms, h m (by simp), ih']

/-- In the documentation of calls, giving an argument by keyword is the same. -/
theorem docCall_same {df : WrapDef F} {name : String} {names : List String} {pre : List (Seen F)}
    {x : Seen F} {kw : List (String × Seen F)}
    (h : SameByKeyword pre.length name df.f) (hd : DerivsSameByKeyword pre.length name df)
    (hn : df.argspec = some names) (hi : names.idxOf? name = some pre.length)
    (hkw : name ∉ kw.map Prod.fst) :
    docCall df (pre ++ [x]) kw = docCall df pre ((name, x) :: kw) := by
  obtain ⟨v, o⟩ := x
  have hlen : (pre.map Prod.fst).length = pre.length := by simp
  have hf := h (pre.map Prod.fst) v (kw.map fun p => (p.1, p.2.1)) hlen
  have hany : anyUnc (pre ++ [(v, o)]) kw = anyUnc pre ((name, (v, o)) :: kw) := by
    simp [anyUnc, Bool.or_assoc]
  have h1 : docPosTerms df (pre.map Prod.fst ++ [v]) (kw.map fun p => (p.1, p.2.1)) 0 pre =
      docPosTerms df (pre.map Prod.fst) ((name, v) :: kw.map fun p => (p.1, p.2.1)) 0 pre :=
    docPosTerms_congr df 0 pre.length pre (by omega)
      (fun i hi' => specPos_same hi' h hd hlen v _)
  have h2 : docKwTerms df (pre.map Prod.fst ++ [v]) (kw.map fun p => (p.1, p.2.1)) kw =
      docKwTerms df (pre.map Prod.fst) ((name, v) :: kw.map fun p => (p.1, p.2.1)) kw :=
    docKwTerms_congr df kw (fun m hm => specKw_same (by rintro rfl; exact hkw hm) h hd hlen v _)
  have h3 := specPos_last h hd hn hi hlen v (kw.map fun p => (p.1, p.2.1))
  simp only [docCall, List.map_append, List.map_cons, List.map_nil, hf, hany, docPosTerms_append, h1, h2,
    Nat.zero_add]
  congr 1
  funext w
  split
  · rfl
  · split
    · rfl
    · cases docPosTerms df (pre.map Prod.fst) ((name, v) :: kw.map fun p => (p.1, p.2.1)) 0 pre with
      | error e => rfl
      | ok l1 =>
        cases o with
        | none =>
          simp only [docPosTerms, docKwTerms, bind, Except.bind, List.append_nil]
        | some D =>
          simp only [docPosTerms, docKwTerms, bind, Except.bind, h3]
          cases df.specKw name (pre.map Prod.fst) ((name, v) :: kw.map fun p => (p.1, p.2.1)) with
          | error e => rfl
          | ok c =>
            simp only []
            cases docKwTerms df (pre.map Prod.fst) ((name, v) :: kw.map fun p => (p.1, p.2.1)) kw with
            | error e => rfl
            | ok l2 => simp

end

/-- **C20**. Let `name` be the parameter of index `pre.length` of `f`. If the values of `f` and of its
supplied derivatives do not depend on whether this argument is given by position or by keyword, then
the wrapped function gives results that cannot be distinguished: same exception, or same nominal value
and same derivatives (if there are any). -/
theorem C20_keyword_or_position (cs : List (Cmd F)) (f : Nat) (df : WrapDef F)
    (hf : (fnsOf cs)[f]? = some df) (names : List String) (name : String)
    (pre : List (Arg F)) (x : Arg F) (kw : List (String × Arg F))
    (pres : List (Seen F)) (xs : Seen F) (kws : List (String × Seen F))
    (h1 : AllSeenAs cs pre pres) (h2 : SeenAs cs x xs) (h3 : AllSeenAsKw cs kw kws)
    (hn : df.argspec = some names) (hi : names[pre.length]? = some name)
    (hkw : name ∉ kw.map Prod.fst)
    (hsame : SameByKeyword pre.length name df.f) (hd : DerivsSameByKeyword pre.length name df) :
    ∃ r, Results cs (.call f (pre ++ [x]) kw) r ∧ Results cs (.call f pre ((name, x) :: kw)) r := by
  have hlen : ∀ (l : List (Arg F)) (ls : List (Seen F)), AllSeenAs cs l ls → l.length = ls.length := by
    intro l
    induction l with
    | nil => intro ls h; cases ls with
      | nil => rfl
      | cons a b => exact h.elim
    | cons y l ih =>
      intro ls h
      cases ls with
      | nil => exact h.elim
      | cons a b => simp [ih b h.2]
  have happ : ∀ (l : List (Arg F)) (ls : List (Seen F)), AllSeenAs cs l ls →
      AllSeenAs cs (l ++ [x]) (ls ++ [xs]) := by
    intro l
    induction l with
    | nil => intro ls h; cases ls with
      | nil => exact ⟨h2, trivial⟩
      | cons a b => exact h.elim
    | cons y l ih =>
      intro ls h
      cases ls with
      | nil => exact h.elim
      | cons a b => exact ⟨h.1, ih b h.2⟩
  have hkws : ∀ (l : List (String × Arg F)) (ls : List (String × Seen F)), AllSeenAsKw cs l ls →
      l.map Prod.fst = ls.map Prod.fst := by
    intro l
    induction l with
    | nil => intro ls h; cases ls with
      | nil => rfl
      | cons a b => exact h.elim
    | cons y l ih =>
      intro ls h
      cases ls with
      | nil => exact h.elim
      | cons a b =>
        obtain ⟨k, y⟩ := y
        obtain ⟨k', a⟩ := a
        obtain ⟨e1, -, e3⟩ := h
        simp [e1, ih b e3]
  have hl := hlen pre pres h1
  have hidx : names.idxOf? name = some pres.length := by
    have hnd := df.argspecNodup names hn
    rw [← hl]
    have hlt := (List.getElem?_eq_some_iff.mp hi)
    obtain ⟨hlt, he⟩ := hlt
    rw [List.idxOf?_eq_some_iff]
    refine ⟨hlt, by simp [he], ?_⟩
    intro j hj e
    have := (List.Nodup.getElem_inj_iff hnd (i := j) (j := pre.length) (hi := by omega) (hj := hlt)).mp
      (e.trans he.symm)
    omega
  refine ⟨docCall df (pres ++ [xs]) kws, C19_call cs f df hf _ _ _ _ (happ pre pres h1) h3, ?_⟩
  rw [hl] at hsame hd
  rw [docCall_same hsame hd hn hidx (by rw [← hkws kw kws h3]; exact hkw)]
  exact C19_call cs f df hf _ _ _ _ h1 ⟨rfl, h2, h3⟩

/-! Example for C20: `exF` with `b` given by keyword, `c` uncertain. -/

theorem exF_same : SameByKeyword 1 "b" exF.f := by
  intro a v k ha
  obtain ⟨x, rfl⟩ := List.length_eq_one_iff.mp ha
  have hne : ¬ "b" = "c" := by decide
  cases x <;> cases v <;> (try rfl)
  all_goals
    cases k with
    | nil => rfl
    | cons p k =>
      obtain ⟨n, w⟩ := p
      cases w <;> cases k <;> (by_cases hn : n = "c") <;> simp [exF, hn]

theorem exF_derivs : DerivsSameByKeyword 1 "b" exF := by
  refine ⟨fun i d h => ?_, fun m d h => ?_⟩
  · match i, h with
    | 1, h => cases h; intro a v k _; rfl
    | 0, h => cases h
    | n + 2, h => cases h
  · simp only [exF, List.lookup] at h
    split at h
    · cases h; intro a v k _; rfl
    · cases h

example : ∃ r, Results exC19 (.call 18 ([.ref 0] ++ [.ref 1]) [("c", .ref 1)]) r ∧
    Results exC19 (.call 18 [.ref 0] (("b", .ref 1) :: [("c", .ref 1)])) r :=
  C20_keyword_or_position exC19 18 exF rfl ["a", "b"] "b" [.ref 0] (.ref 1) [("c", .ref 1)]
    [(.flt (.fin 3), some (fun v => [(0, ZN.fin 1)].lookup v))]
    (.flt (.fin 5), some (fun v => [(1, ZN.fin 1)].lookup v))
    [("c", .flt (.fin 5), some (fun v => [(1, ZN.fin 1)].lookup v))]
    ⟨⟨rfl, rfl⟩, trivial⟩ ⟨rfl, rfl⟩ ⟨rfl, ⟨rfl, rfl⟩, trivial⟩ rfl rfl (by decide) exF_same exF_derivs

/-! ### C22 -/

section
variable {F : Type} [PyFloat F]

/-- A wrapped function is asked for the derivatives with respect to the positional arguments `is`, one
after the other: what it serves. -/
def serve (wf : Wrapped F) : List Nat → Wrapped F × List (PyRes (DerivFn F))
  | [] => (wf, [])
  | i :: is =>
    let (wf, d) := wf.posDeriv i
    let (wf, ds) := serve wf is
    (wf, d :: ds)

theorem Wrapped.posDeriv_taken {wf : Wrapped F} (h : wf.OK) (pos : Nat) :
    (wf.posDeriv pos).1.iter.taken = max wf.iter.taken (pos + 1) := by
  obtain ⟨it', h1, h2, -, -, h5⟩ := IndexableIter.getItem_ok h.iter pos
  rw [h.value] at h1
  simp only [Wrapped.posDeriv, h1]
  rw [h2.taken, h5, h.iter.taken]

theorem serve_ok (wf : Wrapped F) (h : wf.OK) (is : List Nat) :
    (serve wf is).2 = is.map (fun i => .ok (wf.df.specPos i)) ∧
    (serve wf is).1.iter.taken = is.foldl (fun n i => max n (i + 1)) wf.iter.taken := by
  induction is generalizing wf with
  | nil => exact ⟨rfl, rfl⟩
  | cons i is ih =>
    obtain ⟨wf', h1, h2, h3⟩ := Wrapped.posDeriv_ok h i
    have ht := Wrapped.posDeriv_taken h i
    rw [h1] at ht
    obtain ⟨a, b⟩ := ih wf' h2
    simp only [serve, h1, a, b, h3, List.map_cons, List.foldl_cons]
    exact ⟨trivial, by rw [ht]⟩

theorem initArgspec_length (f : PyFn F) (index : Nat) (names : List String) (it : IndexableIter F)
    (kw : List (String × DerivFn F)) (hit : it.OK) (hlen : it.returnedElements.length = index) :
    (initArgspec f index names it kw).1.taken = index + names.length := by
  induction names generalizing index it kw with
  | nil => simp [initArgspec, hit.taken, hlen]
  | cons n names ih =>
    obtain ⟨it', h1, h2, -, -, h5⟩ := IndexableIter.getItem_ok hit index
    have e : it'.returnedElements.length = index + 1 := by omega
    simp only [initArgspec, h1]
    cases it.value index with
    | none => simp only [ih (index + 1) it' _ h2 e, List.length_cons]; omega
    | some d => simp only [ih (index + 1) it' _ h2 e, List.length_cons]; omega

/-- `wrap()` itself takes one element for each named parameter of the function. -/
theorem mkWrapped_taken (df : WrapDef F) :
    (mkWrapped df).iter.taken = (df.argspec.map List.length).getD 0 := by
  have hit0 : (IndexableIter.mk' df.derivativesArgs.chained).OK :=
    ⟨rfl, fun i hi => by simp [IndexableIter.mk'] at hi⟩
  unfold mkWrapped
  cases df.argspec with
  | none => rfl
  | some names =>
    have := initArgspec_length df.f 0 names (IndexableIter.mk' df.derivativesArgs.chained)
      (initKwargs df.f df.derivativesKwargs []) hit0 rfl
    simpa using this

/-- **C22**. Whatever the iterable `derivatives_args` (finite or infinite), and whatever the sequence
of positional arguments for which a derivative is needed, the derivative served for the argument `i` is
the `i`-th element of the iterable (numerical differentiation standing for `None` and missing
elements). The iterator is asked for exactly as many elements as needed, once each: the `i`-th element
it produces is produced once. -/
theorem C22_serve (df : WrapDef F) (is : List Nat) :
    (serve (mkWrapped df) is).2 = is.map (fun i => .ok (df.specPos i)) ∧
    (serve (mkWrapped df) is).1.iter.taken =
      is.foldl (fun n i => max n (i + 1)) ((df.argspec.map List.length).getD 0) := by
  have := serve_ok (mkWrapped df) (mkWrapped_ok df) is
  rw [mkWrapped_taken] at this
  exact this

end

/-- The same after any history: the number of elements taken from the iterator is at least 1 more than
each index served, and serving an index again takes nothing. -/
theorem C22_once {F : Type} [PyMath F] [Halts F] (cs : List (Cmd F)) (f : Nat) (wf : Wrapped F)
    (hf : (after cs).w.wraps[f]? = some wf) (is : List Nat) :
    (serve wf is).2 = is.map (fun i => .ok (wf.df.specPos i)) ∧
    (serve wf is).1.iter.taken = is.foldl (fun n i => max n (i + 1)) wf.iter.taken :=
  serve_ok wf ((MShape.after cs).shape.wraps f wf hf) is

/-- An infinite iterator: element `i` is the function with the constant value `i`, and `None` for odd
`i`. -/
def exInf : WrapDef ZN where
  f := fun l _ => .ok (.flt (l.foldl (fun s v => match v with | .flt x => s + x | _ => s) (.fin 0)))
  derivativesArgs := .infinite (fun i => if i % 2 = 1 then none else some (fun _ _ => .ok (.fin i)))
  derivativesKwargs := []
  argspec := some []

example : (serve (mkWrapped exInf) [4, 0, 4, 2]).1.iter.taken = 5 ∧
    (mkWrapped exInf).iter.taken = 0 ∧
    ((serve (mkWrapped exInf) [4, 0, 4, 2]).2.map (fun r => match r with
      | .ok d => some (d [] [])
      | .error _ => none)) = [some (.ok (.fin 4)), some (.ok (.fin 0)), some (.ok (.fin 4)), some (.ok (.fin 2))] :=
  ⟨rfl, rfl, rfl⟩

end Unc
