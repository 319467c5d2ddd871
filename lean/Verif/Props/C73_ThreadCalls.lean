import Verif.Lemmas.ThreadCalls
import Verif.Lemmas.WrapsGrow
import Verif.Py.ZN

/-
C73: several threads that call functions at the same time. C74: calls that are interrupted.
-/

namespace Unc

set_option linter.unusedSectionVars false
set_option autoImplicit false

section general
variable {F : Type} [PyMath F] [Halts F]

theorem isUncertain_iff (cs : List (Cmd F)) (x : Arg F) : IsUncertain cs x ↔ ∃ u, x.eval (after cs).env = some (.unc u) := by
  unfold IsUncertain sees
  simp only [Machine.step, Machine.read, Arg.evalUnc]
  cases x.eval (after cs).env with
  | none => simp [Machine.invalid]
  | some v =>
    cases v with
    | plain v => simp [Machine.invalid]
    | unc u =>
      simp only [mapRes]
      cases ((after cs).w.derivatives u).2 <;> simp [Except.map]

theorem startCalls_some {m : Machine F} {callers : List (Caller F)} {r : CallRace F} (h : startCalls m callers = some r) :
    evalArgs (Caller.start m) callers = some r.threads ∧ r.wraps = m.w.wraps := by
  unfold startCalls at h
  cases he : evalArgs (Caller.start m) callers with
  | none => rw [he] at h; cases h
  | some ths => rw [he] at h; cases h; exact ⟨rfl, rfl⟩

/-- The threads that start, one by one. -/
theorem started {m : Machine F} {callers : List (Caller F)} {r : CallRace F} (h : startCalls m callers = some r) (t : Nat)
    {th : CallThread F} (ht : r.threads[t]? = some th) : ∃ c, callers[t]? = some c ∧ c.start m = some th := by
  have h1 := (startCalls_some h).1
  have : ∀ (callers : List (Caller F)) ths, evalArgs (Caller.start m) callers = some ths → ∀ (t : Nat) th, ths[t]? = some th →
      ∃ c, callers[t]? = some c ∧ c.start m = some th := by
    intro callers
    induction callers with
    | nil => intro ths he t th hth; cases he; simp at hth
    | cons c callers ih =>
      intro ths he t th hth
      simp only [evalArgs] at he
      cases hc : c.start m with
      | none => rw [hc] at he; cases he
      | some th0 =>
        rw [hc] at he
        cases hr : evalArgs (Caller.start m) callers with
        | none => rw [hr] at he; cases he
        | some rest =>
          rw [hr] at he
          cases he
          cases t with
          | zero =>
            simp only [List.getElem?_cons_zero, Option.some.injEq] at hth
            subst hth
            exact ⟨c, rfl, hc⟩
          | succ t =>
            simp only [List.getElem?_cons_succ] at hth ⊢
            exact ih rest hr t th hth
  exact this callers r.threads h1 t th ht

theorem started' {m : Machine F} {callers : List (Caller F)} {r : CallRace F} (h : startCalls m callers = some r) (t : Nat)
    {c : Caller F} (hc : callers[t]? = some c) : ∃ th, r.threads[t]? = some th ∧ c.start m = some th := by
  have h1 := (startCalls_some h).1
  have hl : r.threads.length = callers.length := evalArgs_some_length h1
  have hlt : t < callers.length := (List.getElem?_eq_some_iff.mp hc).1
  obtain ⟨th, ht⟩ : ∃ th, r.threads[t]? = some th := ⟨_, List.getElem?_eq_getElem (by rw [hl]; exact hlt)⟩
  obtain ⟨c', hc', hs⟩ := started h t ht
  rw [hc] at hc'
  cases hc'
  exact ⟨th, ht, hs⟩

theorem evalArgs_at73 {α β : Type} {ev : α → Option β} {l : List α} {vs : List β}
    (h : evalArgs ev l = some vs) (t : Nat) : vs[t]? = (l[t]?).bind ev := by
  induction l generalizing vs t with
  | nil => cases h; simp
  | cons a l ih =>
    simp only [evalArgs] at h
    cases ha : ev a with
    | none => rw [ha] at h; cases h
    | some v =>
      rw [ha] at h
      cases hl : evalArgs ev l with
      | none => rw [hl] at h; cases h
      | some ws =>
        rw [hl] at h
        cases h
        cases t with
        | zero => simp [ha]
        | succ t => simpa using ih hl t

theorem needsNew_of_cold {cs : List (Cmd F)} {c : Caller F} {th : CallThread F} (hs : c.start (after cs) = some th) {wf : Wrapped F}
    (hw : (after cs).w.wraps[th.f]? = some wf) (hc : ColdArgs wf.iter.returnedElements.length th.args) : NeedsNew cs c := by
  obtain ⟨s1, s2, s3, s4, s5⟩ := Caller.start_some hs
  obtain ⟨k, u, hk, hle⟩ := hc
  rw [evalArgs_at73 s4] at hk
  cases hx : c.args[k]? with
  | none => rw [hx] at hk; cases hk
  | some x =>
    rw [hx] at hk
    refine ⟨k, x, hx, (isUncertain_iff cs x).mpr ⟨u, hk⟩, ?_⟩
    unfold takenBy
    rw [← s2, hw]
    have := ((MShape.after cs).shape.wraps _ _ hw).iter.taken
    simp only [Option.map_some, Option.getD_some]
    omega

/-- At most one thread needs new derivatives of each function. -/
def AtMostOneNew (cs : List (Cmd F)) (callers : List (Caller F)) : Prop :=
  ∀ (t t' : Nat) c c', t ≠ t' → callers[t]? = some c → callers[t']? = some c' → c.f = c'.f → NeedsNew cs c → ¬ NeedsNew cs c'

theorem oneCold_start {cs : List (Cmd F)} {callers : List (Caller F)} {r : CallRace F} (hr : startCalls (after cs) callers = some r)
    (hone : AtMostOneNew cs callers) : OneCold r := by
  obtain ⟨h1, h2⟩ := startCalls_some hr
  intro t t' th th' wf hne ht ht' hf hw c1 c2
  obtain ⟨c, hc, hs⟩ := started hr t ht
  obtain ⟨c', hc', hs'⟩ := started hr t' ht'
  rw [h2] at hw
  refine hone t t' c c' hne hc hc' ?_ (needsNew_of_cold hs hw c1) (needsNew_of_cold hs' (by rw [← hf]; exact hw) c2)
  rw [← (Caller.start_some hs).2.1, ← (Caller.start_some hs').2.1, hf]

/-- Only the calls that need new derivatives store some. -/
theorem stopped_needsNew {cs : List (Cmd F)} {callers : List (Caller F)} {sched : List Nat} (hnn : ∀ c ∈ callers, ¬ NeedsNew cs c) :
    stoppedWhileStoring cs callers sched = false := by
  unfold stoppedWhileStoring
  cases hr : startCalls (after cs) callers with
  | none => rfl
  | some r =>
    simp only
    obtain ⟨h1, h2⟩ := startCalls_some hr
    have hok : ∀ (i : Nat) wf, r.wraps[i]? = some wf → wf.OK := by
      rw [h2]; exact (MShape.after cs).shape.wraps
    have hstart : ∀ (t : Nat) th, r.threads[t]? = some th → th.pc = .start := by
      intro t th ht
      obtain ⟨c, -, hs⟩ := started hr t ht
      exact (Caller.start_some hs).2.2.1
    have hinv := (CallInv.start hok hstart).run (oneCold_start hr (fun t t' c c' _ hc _ _ hn =>
      absurd hn (hnn c (List.mem_of_getElem? hc)))) sched
    rw [List.any_eq_false]
    intro th ht
    obtain ⟨t, hlt, ht⟩ := List.getElem_of_mem ht
    have ht : (r.run sched).threads[t]? = some th := by rw [← ht]; exact List.getElem?_eq_getElem hlt
    have hlt0 : t < r.threads.length := by rw [← hinv.tlen]; exact hlt
    have ht0 : r.threads[t]? = some r.threads[t] := List.getElem?_eq_getElem hlt0
    obtain ⟨c, hc, hs⟩ := started hr t ht0
    obtain ⟨e1, e2, e3⟩ := hinv.same t _ th ht0 ht
    have hf : th.f < (after cs).w.wraps.length := by
      rw [e1, (Caller.start_some hs).2.1]; exact (Caller.start_some hs).1
    have hw0 : r.wraps[th.f]? = some (r.wraps[th.f]'(by rw [h2]; exact hf)) := List.getElem?_eq_getElem _
    have hw : (r.run sched).wraps[th.f]? = some ((r.run sched).wraps[th.f]'(by rw [hinv.len, h2]; exact hf)) :=
      List.getElem?_eq_getElem _
    have htok := (hinv.tok t th _ _ ht hw0 hw).1
    have hb : th.pc.busy = false := by
      cases hb : th.pc.busy with
      | false => rfl
      | true =>
        exfalso
        refine hnn c (List.mem_of_getElem? hc) (needsNew_of_cold hs (wf := r.wraps[th.f]'(by rw [h2]; exact hf)) ?_ ?_)
        · have hw1 : (after cs).w.wraps[th.f]? = some (r.wraps[th.f]'(by rw [h2]; exact hf)) :=
            (congrArg (fun W => W[th.f]?) h2).symm.trans hw0
          exact (congrArg (fun i => (after cs).w.wraps[i]?) e1).symm.trans hw1
        · rw [← e2]; exact TOK_cold htok hb
    revert hb
    cases th.pc <;> simp [CallPc.busy]

/-- The state at the end of a schedule. -/
theorem calls_main {cs : List (Cmd F)} {callers : List (Caller F)} {sched : List Nat} {m : Machine F} {os : List (Option (Out F))}
    (h : calls cs callers sched = some (m, os)) (hone : AtMostOneNew cs callers) (hst : stoppedWhileStoring cs callers sched = false) :
    os.length = callers.length ∧
    (∀ (t : Nat) o, os[t]? = some (some o) → ((after cs).run (List.zipWith Caller.did callers os)).2[t]? = some o) ∧
    (∃ W, m = ((after cs).run (List.zipWith Caller.did callers os)).1.withW W ∧
      WSame ((after cs).run (List.zipWith Caller.did callers os)).1.w.wraps W) := by
  unfold calls at h
  cases hr : startCalls (after cs) callers with
  | none => rw [hr] at h; cases h
  | some r =>
    rw [hr] at h
    simp only [Option.map_some, Option.some.injEq] at h
    obtain ⟨h1, h2⟩ := startCalls_some hr
    have hok : ∀ (i : Nat) wf, r.wraps[i]? = some wf → wf.OK := by
      rw [h2]; exact (MShape.after cs).shape.wraps
    have hstart : ∀ (t : Nat) th, r.threads[t]? = some th → th.pc = .start := by
      intro t th ht
      obtain ⟨c, -, hs⟩ := started hr t ht
      exact (Caller.start_some hs).2.2.1
    have hinv := (CallInv.start hok hstart).run (oneCold_start hr hone) sched
    have hq : ∀ (t : Nat) th, (r.run sched).threads[t]? = some th → th.pc.isAppend = false := by
      intro t th ht
      simp only [stoppedWhileStoring, hr] at hst
      have hmem : th ∈ (r.run sched).threads := List.mem_of_getElem? ht
      have := List.any_eq_false.mp hst th hmem
      revert this
      cases th.pc <;> simp [CallPc.isAppend]
    have hws := hinv.wsame hok hq
    rw [h2] at hws
    obtain ⟨os', b1, b2, b3, b4, b5⟩ := bindCalls_seq (m0 := after cs) (m := after cs) (e := []) h1 hinv.tlen
      (W := (r.run sched).wraps) (ths := (r.run sched).threads) (by
        intro t th0 th ht0 ht
        obtain ⟨e1, e2, e3⟩ := hinv.same t th0 th ht0 ht
        refine ⟨e1, e2, e3, ?_⟩
        intro hd
        obtain ⟨c, -, hs⟩ := started hr t ht0
        have hf : th.f < (after cs).w.wraps.length := by
          have := (Caller.start_some hs)
          rw [e1, this.2.1]; exact this.1
        have hw0 : r.wraps[th.f]? = some (r.wraps[th.f]'(by rw [h2]; exact hf)) := List.getElem?_eq_getElem _
        have hw : (r.run sched).wraps[th.f]? = some ((r.run sched).wraps[th.f]'(by rw [hinv.len, h2]; exact hf)) :=
          List.getElem?_eq_getElem _
        have htok := (hinv.tok t th _ _ ht hw0 hw).2
        refine ⟨_, hw, ?_⟩
        rw [(hinv.core th.f _ _ hw0 hw).df, ← htok]
        cases hpc : th.pc with
        | done x => rfl
        | _ => rw [hpc] at hd; cases hd) (by simp) hws
    have he : (after cs).withCalls (r.run sched) = ((after cs).withW (r.run sched).wraps).bindCalls (r.run sched).threads := rfl
    rw [he, b1] at h
    cases h
    exact ⟨b2, b4, _, rfl, b3⟩

theorem run_append_fst (m : Machine F) (cs cs' : List (Cmd F)) : (m.run (cs ++ cs')).1 = ((m.run cs).1.run cs').1 := by
  induction cs generalizing m with
  | nil => rfl
  | cons c cs ih =>
    simp only [List.cons_append, Machine.run]
    exact ih _

theorem after_append' (cs cs' : List (Cmd F)) : after (cs ++ cs') = ((after cs).run cs').1 := run_append_fst _ _ _

theorem zipWith_did {callers : List (Caller F)} {os : List (Option (Out F))} (hl : os.length = callers.length)
    (hd : ∀ o ∈ os, o ≠ none) : List.zipWith Caller.did callers os = callers.map Caller.cmd := by
  induction callers generalizing os with
  | nil => simp
  | cons c callers ih =>
    cases os with
    | nil => cases hl
    | cons o os =>
      simp only [List.zipWith_cons_cons, List.map_cons]
      rw [ih (by simpa using hl) (fun o ho => hd o (List.mem_cons_of_mem _ ho))]
      cases o with
      | none => exact absurd rfl (hd none (by simp))
      | some o => rfl

theorem run_length (m : Machine F) (cs : List (Cmd F)) : (m.run cs).2.length = cs.length := by
  induction cs generalizing m with
  | nil => rfl
  | cons c cs ih => simp [Machine.run, ih]

/-- If no thread is stopped, none of them is stopped while storing a derivative. -/
theorem not_stopped {cs : List (Cmd F)} {callers : List (Caller F)} {sched : List Nat} {m : Machine F} {os : List (Option (Out F))}
    (h : calls cs callers sched = some (m, os)) (hd : ∀ o ∈ os, o ≠ none) : stoppedWhileStoring cs callers sched = false := by
  unfold calls at h
  unfold stoppedWhileStoring
  cases hr : startCalls (after cs) callers with
  | none => rfl
  | some r =>
    rw [hr] at h
    simp only [Option.map_some, Option.some.injEq] at h ⊢
    have key : ∀ (ths : List (CallThread F)) (m0 : Machine F), (∀ o ∈ (m0.bindCalls ths).2, o ≠ none) → ∀ th ∈ ths, th.pc.isDone = true := by
      intro ths
      induction ths with
      | nil => intro m0 _ th ht; cases ht
      | cons a l ih =>
        intro m0 hall th ht
        simp only [Machine.bindCalls] at hall
        rcases List.mem_cons.mp ht with rfl | ht
        · cases hdn : th.pc.isDone with
          | true => rfl
          | false =>
            have := hall (m0.bindCall th.pc).2 (by simp)
            rw [bindCall_not_done hdn] at this
            exact absurd rfl this
        · exact ih (m0.bindCall a.pc).1 (fun o ho => hall o (List.mem_cons_of_mem _ ho)) th ht
    rw [List.any_eq_false]
    intro th ht
    have := key (r.run sched).threads _ (by rw [← Machine.withCalls, h]; exact hd) th ht
    revert this
    cases th.pc <;> simp [CallPc.isDone]

/-- C73: any number of threads call functions at the same time, after any history. If, for each function, at most one of them needs
derivatives that the function did not take from its iterable yet, then, whatever the schedule, each thread sees what it would see if the
calls were made one after the other, and so does the program afterwards, whatever it does. Without the condition on the
derivatives, this is not true (`C73_fails`). -/
theorem C73_calls_partial (cs : List (Cmd F)) (callers : List (Caller F)) (sched : List Nat) {m : Machine F}
    {os : List (Option (Out F))} (h : calls cs callers sched = some (m, os)) (hdone : ∀ o ∈ os, o ≠ none)
    (hone : AtMostOneNew cs callers) :
    os = ((after cs).run (callers.map Caller.cmd)).2.map some ∧
    ∀ cs', (m.run cs').2 = ((after (cs ++ callers.map Caller.cmd)).run cs').2 := by
  obtain ⟨h1, h2, W, h3, h4⟩ := calls_main h hone (not_stopped h hdone)
  rw [zipWith_did h1 hdone] at h2 h3 h4
  constructor
  · apply List.ext_getElem?
    intro t
    cases ho : os[t]? with
    | none =>
      have : os.length ≤ t := by simpa using ho
      rw [List.getElem?_map, List.getElem?_eq_none (by rw [run_length, List.length_map, ← h1]; exact this)]
      rfl
    | some o =>
      cases o with
      | none => exact absurd rfl (hdone none (List.mem_of_getElem? ho))
      | some o => rw [List.getElem?_map, h2 t o ho]; rfl
  · intro cs'
    rw [after_append', h3]
    obtain ⟨W', e, -⟩ := run_same h4 cs'
    rw [e]

/-- C73: a thread never waits for the other ones: whatever they do, its call is finished after a number of operations that depends
only on its arguments. -/
theorem C73_finishes (cs : List (Cmd F)) (callers : List (Caller F)) (sched : List Nat) {m : Machine F}
    {os : List (Option (Out F))} (h : calls cs callers sched = some (m, os)) (t : Nat) {c : Caller F} (hc : callers[t]? = some c)
    (hn : c.args.length * (2 * c.args.length + 6) + c.kwargs.length + 3 ≤ sched.count t) : ∃ o, os[t]? = some (some o) := by
  unfold calls at h
  cases hr : startCalls (after cs) callers with
  | none => rw [hr] at h; cases h
  | some r =>
    rw [hr] at h
    simp only [Option.map_some, Option.some.injEq] at h
    obtain ⟨th, ht, hs⟩ := started' hr t hc
    obtain ⟨s1, s2, s3, s4, s5⟩ := Caller.start_some hs
    obtain ⟨th', h1, h2⟩ := run_left sched r t th ht (by rw [s2, (startCalls_some hr).2]; exact s1)
    have l1 : th.args.length = c.args.length := evalArgs_some_length s4
    have l2 : th.kwargs.length = c.kwargs.length := evalArgs_some_length s5
    have hd : th'.pc.isDone = true := by
      refine left_zero (args := th.args) (nkw := th.kwargs.length) ?_
      have e : (CallPc.start : CallPc F).left th.args th.kwargs.length =
          c.args.length * (2 * c.args.length + 6) + c.kwargs.length + 3 := by
        simp [CallPc.left, posLeft, l1, l2]
      rw [s3, e] at h2
      omega
    have key : ∀ (ths : List (CallThread F)) (m0 : Machine F) (t : Nat) th, ths[t]? = some th → th.pc.isDone = true →
        ∃ o, (m0.bindCalls ths).2[t]? = some (some o) := by
      intro ths
      induction ths with
      | nil => intro m0 t th ht _; simp at ht
      | cons a l ih =>
        intro m0 t th ht hd
        simp only [Machine.bindCalls]
        cases t with
        | zero =>
          simp only [List.getElem?_cons_zero, Option.some.injEq] at ht ⊢
          subst ht
          exact bindCall_done hd
        | succ t =>
          simp only [List.getElem?_cons_succ] at ht ⊢
          exact ih _ t th ht hd
    have := key (r.run sched).threads ⟨{ (after cs).w with wraps := (r.run sched).wraps }, (after cs).env⟩ t th' h1 hd
    rw [← Machine.withCalls, h] at this
    exact this

/-- C74: threads make calls, and are stopped at any point of their execution (for instance by `KeyboardInterrupt`), except between the
moment when a derivative is taken from the iterable and the moment when it is stored. The calls that were finished gave what they
should, and the other ones left no trace: the program sees, whatever it does, what it would see if these calls had only raised an
exception. At the excluded point of the execution, this is not true (`C74_fails`). -/
theorem C74_interrupted_partial (cs : List (Cmd F)) (callers : List (Caller F)) (sched : List Nat) {m : Machine F}
    {os : List (Option (Out F))} (h : calls cs callers sched = some (m, os)) (hone : AtMostOneNew cs callers)
    (hst : stoppedWhileStoring cs callers sched = false) :
    (∀ (t : Nat) o, os[t]? = some (some o) → ((after cs).run (List.zipWith Caller.did callers os)).2[t]? = some o) ∧
    ∀ cs', (m.run cs').2 = ((after (cs ++ List.zipWith Caller.did callers os)).run cs').2 := by
  obtain ⟨h1, h2, W, h3, h4⟩ := calls_main h hone hst
  refine ⟨h2, ?_⟩
  intro cs'
  rw [after_append', h3]
  obtain ⟨W', e, -⟩ := run_same h4 cs'
  rw [e]

/-- C74, for one thread: a call that is interrupted. -/
theorem C74_one_call_partial (cs : List (Cmd F)) (c : Caller F) (n : Nat) {m : Machine F}
    (h : calls cs [c] (List.replicate n 0) = some (m, [none])) (hst : stoppedWhileStoring cs [c] (List.replicate n 0) = false)
    (cs' : List (Cmd F)) : (m.run cs').2 = ((after (cs ++ [raises])).run cs').2 := by
  refine (C74_interrupted_partial cs [c] (List.replicate n 0) h ?_ hst).2 cs'
  intro t t' c1 c2 hne h1 h2
  have a1 := (List.getElem?_eq_some_iff.mp h1).1
  have a2 := (List.getElem?_eq_some_iff.mp h2).1
  simp at a1 a2
  omega

/-! ### When no new derivative is needed -/

theorem takenBy_mono (cs cs' : List (Cmd F)) (f : Nat) : takenBy cs f ≤ takenBy (cs ++ cs') f := by
  unfold takenBy
  cases hf : (after cs).w.wraps[f]? with
  | none => exact Nat.zero_le _
  | some wf =>
    obtain ⟨wf', h1, h2, h3⟩ := run_grow (after cs) cs' f wf hf ((MShape.after cs).shape.wraps f wf hf)
    rw [after_append', h1]
    exact h3

/-- C73: a call that gave a number with uncertainty (or `NotImplemented` was not its result) took the derivatives with respect to
the positional arguments that have an uncertainty; they remain available whatever the program does next. -/
theorem C73_already_used (cs cs' : List (Cmd F)) (f : Nat) (args : List (Arg F)) (kwargs : List (String × Arg F))
    (hsee : sees cs (.call f args kwargs) = .done) {k : Nat} {x : Arg F} (hx : args[k]? = some x) (hu : IsUncertain cs x) :
    k < takenBy (cs ++ .call f args kwargs :: cs') f := by
  have hsplit : cs ++ Cmd.call f args kwargs :: cs' = (cs ++ [.call f args kwargs]) ++ cs' := by simp
  rw [hsplit]
  refine Nat.lt_of_lt_of_le ?_ (takenBy_mono (cs ++ [.call f args kwargs]) cs' f)
  obtain ⟨u, hu⟩ := (isUncertain_iff cs x).mp hu
  unfold takenBy
  rw [after_append']
  simp only [Machine.run]
  unfold sees at hsee
  simp only [Machine.step] at hsee ⊢
  split at hsee
  · rename_i hf
    rw [if_pos hf]
    cases ha : evalArgs (Arg.eval (after cs).env) args with
    | none => rw [ha] at hsee; simp [Machine.invalid] at hsee
    | some a =>
      cases hk : evalArgs (Arg.evalKw (after cs).env) kwargs with
      | none => rw [ha, hk] at hsee; simp [Machine.invalid] at hsee
      | some kw =>
        rw [ha, hk] at hsee
        simp only [bind_wraps] at hsee ⊢
        have hak : a[k]? = some (.unc u) := by rw [evalArgs_at73 ha, hx]; exact hu
        have hw : (after cs).w.wraps[f]? = some ((after cs).w.wraps[f]'hf) := List.getElem?_eq_getElem hf
        have hok := (MShape.after cs).shape.wraps f _ hw
        have htk := (callTerms_taken _ hok a kw).2
        unfold World.call at hsee ⊢
        rw [hw] at hsee ⊢
        simp only at hsee ⊢
        rcases hct : callTerms ((after cs).w.wraps[f]'hf) a kw with ⟨wf1, r⟩
        rw [hct] at htk
        have hget : ((after cs).w.wraps.set f wf1)[f]? = some wf1 := by rw [List.getElem?_set]; simp [hf]
        -- with an uncertain argument, a plain result is `NotImplemented`
        cases r with
        | error e => rw [hct] at hsee; simp [Machine.bind] at hsee
        | ok r =>
          cases r with
          | inl v =>
            exfalso
            have hall : (a.all (fun a => !a.isUnc) && kw.all (fun p => !p.2.isUnc)) = false := by
              have : a.all (fun a => !a.isUnc) = false := by
                rw [List.all_eq_false]
                exact ⟨.unc u, List.mem_of_getElem? hak, by simp [Val.isUnc]⟩
              simp [this]
            obtain ⟨wf2, c1, -, -⟩ := callTerms_callSpec _ hok a kw
            rw [hct] at c1
            have c2 := congrArg Prod.snd c1
            simp only [callSpec, hall] at c2
            have hv : v = .notImpl := by
              revert c2
              cases ((after cs).w.wraps[f]'hf).df.f (a.map Val.nominal) (kw.map fun p => (p.1, p.2.nominal)) with
              | error e => simp
              | ok v' =>
                simp only [Bool.false_eq_true, if_false]
                split
                · intro h; simpa using h
                · intro h
                  exfalso
                  revert h
                  unfold posEnd
                  split
                  · simp
                  · unfold kwEnd
                    split
                    · simp
                    · split <;> simp
            rw [hct, hv] at hsee
            simp [Machine.bind] at hsee
          | inr p =>
            simp only [World.alloc]
            rw [hget]
            simp only [Option.map_some, Option.getD_some]
            exact htk p rfl k u hak
  · simp [Machine.invalid] at hsee

/-- C73: the derivatives with respect to the named parameters of a function are taken when it is wrapped. -/
theorem C73_named (cs : List (Cmd F)) (f : Nat) {df : WrapDef F} {names : List String} (hf : (fnsOf cs)[f]? = some df)
    (hn : df.argspec = some names) : names.length ≤ takenBy cs f := by
  have key : ∀ cs : List (Cmd F), ∀ (f : Nat) wf, (after cs).w.wraps[f]? = some wf → ∀ names, wf.df.argspec = some names →
      names.length ≤ wf.iter.taken := by
    intro cs
    induction cs using List.reverseRecOn with
    | nil =>
      intro f wf hw names hn
      have hi : (after ([] : List (Cmd F))).w.wraps = opDefs.map mkWrapped := rfl
      rw [hi, List.getElem?_map] at hw
      cases hd : (opDefs (F := F))[f]? with
      | none => rw [hd] at hw; cases hw
      | some df =>
        rw [hd] at hw
        cases hw
        rw [mkWrapped_df] at hn
        rw [mkWrapped_taken, hn]
        simp
    | append_singleton cs c ih =>
      intro f wf hw names hn
      have hA : after (cs ++ [c]) = ((after cs).step c).1 := by rw [after_append']; rfl
      by_cases hlt : f < (after cs).w.wraps.length
      · have hw0 : (after cs).w.wraps[f]? = some ((after cs).w.wraps[f]'hlt) := List.getElem?_eq_getElem hlt
        obtain ⟨wf', a, b, d⟩ := step_grow (after cs) c f _ hw0 ((MShape.after cs).shape.wraps f _ hw0)
        rw [hA, a] at hw
        cases hw
        have hdf : ((after cs).w.wraps[f]'hlt).df = wf.df := by
          have e1 := fnsOf_after cs
          have e2 := fnsOf_after (cs ++ [c])
          have e3 : (fnsOf (cs ++ [c]))[f]? = (fnsOf cs)[f]? := by
            have : fnsOf (cs ++ [c]) = fnsOf cs ++ c.defs := by simp [fnsOf]
            rw [this, List.getElem?_append_left]
            rw [← e1, List.length_map]; exact hlt
          rw [← e1, ← e2, List.getElem?_map, List.getElem?_map, hA, a, hw0] at e3
          simpa using e3.symm
        have := ih f _ hw0 names (by rw [hdf]; exact hn)
        omega
      · -- a function that was just wrapped
        have e1 := fnsOf_after cs
        have e2 := fnsOf_after (cs ++ [c])
        have hlen : c.defs = [] → (after (cs ++ [c])).w.wraps.length = (after cs).w.wraps.length := by
          intro hc
          have h1 := congrArg List.length e1
          have h2 := congrArg List.length e2
          simp only [List.length_map] at h1 h2
          rw [h1, h2]
          simp [fnsOf, hc]
        have hfl := (List.getElem?_eq_some_iff.mp hw).1
        cases c with
        | wrap df =>
          rw [hA] at hw
          simp only [Machine.step, World.wrap] at hw
          rw [List.getElem?_append_right (by omega), List.getElem?_singleton] at hw
          split at hw
          · cases hw
            rw [mkWrapped_df] at hn
            rw [mkWrapped_taken, hn]
            simp
          · cases hw
        | _ =>
          rw [hlen rfl] at hfl
          exact absurd hfl hlt
  have e1 := fnsOf_after cs
  rw [← e1, List.getElem?_map] at hf
  unfold takenBy
  cases hw : (after cs).w.wraps[f]? with
  | none => rw [hw] at hf; cases hf
  | some wf =>
    rw [hw] at hf
    simp only [Option.map_some, Option.some.injEq] at hf
    subst hf
    exact key cs f wf hw names hn

/-- The functions `__op__` and `__rop__` other than the powers, with the number of arguments of the operators. -/
def Caller.IsOperator (c : Caller F) : Prop :=
  (∃ op : BinOp, op ≠ .pow ∧ (c.f = op.id ∨ c.f = op.rid) ∧ c.args.length ≤ 2) ∨ (∃ op : UnOp, c.f = op.id ∧ c.args.length ≤ 1)

theorem operator_named (cs : List (Cmd F)) {c : Caller F} (h : c.IsOperator) : ¬ NeedsNew cs c := by
  have hfn : ∀ f, f < 18 → (fnsOf cs)[f]? = (opDefs (F := F))[f]? := by
    intro f hf
    unfold fnsOf
    rw [List.getElem?_append_left]
    exact hf
  have key : ∀ names : List String, (∃ df, (fnsOf cs)[c.f]? = some df ∧ df.argspec = some names) → c.args.length ≤ names.length →
      ¬ NeedsNew cs c := by
    rintro names ⟨df, h1, h2⟩ hl ⟨k, x, hk, -, hle⟩
    have := C73_named cs c.f h1 h2
    have := (List.getElem?_eq_some_iff.mp hk).1
    omega
  rcases h with ⟨op, hp, hf, hl⟩ | ⟨op, hf, hl⟩
  · refine key ["self", "value"] ?_ hl
    rcases hf with hf | hf
    · refine ⟨op.wrapDef, ?_, ?_⟩
      · rw [hf, hfn _ (by cases op <;> decide)]; cases op <;> rfl
      · cases op <;> first | rfl | exact absurd rfl hp
    · refine ⟨op.rwrapDef, ?_, ?_⟩
      · rw [hf, hfn _ (by cases op <;> decide)]; cases op <;> rfl
      · cases op <;> first | rfl | exact absurd rfl hp
  · refine key ["self"] ⟨op.wrapDef, ?_, rfl⟩ hl
    rw [hf, hfn _ (by cases op <;> decide)]; cases op <;> rfl

/-- C73, for the operators `+`, `-`, `*`, `/`, `//`, `%`, `abs()`, unary `+` and `-`, and `math.trunc()`: threads that use them at the
same time, after any history and with any schedule, see what they would see one after the other, and so does the program
afterwards. -/
theorem C73_operators (cs : List (Cmd F)) (callers : List (Caller F)) (sched : List Nat) {m : Machine F}
    {os : List (Option (Out F))} (h : calls cs callers sched = some (m, os)) (hdone : ∀ o ∈ os, o ≠ none)
    (hop : ∀ c ∈ callers, c.IsOperator) :
    os = ((after cs).run (callers.map Caller.cmd)).2.map some ∧
    ∀ cs', (m.run cs').2 = ((after (cs ++ callers.map Caller.cmd)).run cs').2 := by
  refine C73_calls_partial cs callers sched h hdone ?_
  intro t t' c c' _ hc _ _ hn
  exact absurd hn (operator_named cs (hop c (List.mem_of_getElem? hc)))

/-- C74, for the same operators. They have no excluded point: at any point where they are stopped, they leave no trace. -/
theorem C74_operators (cs : List (Cmd F)) (callers : List (Caller F)) (sched : List Nat) {m : Machine F}
    {os : List (Option (Out F))} (h : calls cs callers sched = some (m, os)) (hop : ∀ c ∈ callers, c.IsOperator) :
    (∀ (t : Nat) o, os[t]? = some (some o) → ((after cs).run (List.zipWith Caller.did callers os)).2[t]? = some o) ∧
    ∀ cs', (m.run cs').2 = ((after (cs ++ List.zipWith Caller.did callers os)).run cs').2 := by
  have hnn : ∀ c ∈ callers, ¬ NeedsNew cs c := fun c hc => operator_named cs (hop c hc)
  refine C74_interrupted_partial cs callers sched h ?_ (stopped_needsNew hnn)
  intro t t' c c' _ hc _ _ hn
  exact absurd hn (hnn c (List.mem_of_getElem? hc))

end general

/-! ### Concrete cases -/

/-- The derivative with respect to variable `i` that a program sees. -/
def Out.at {F : Type} (i : Nat) : Out F → Option F
  | .dict l => l i
  | _ => none

/-- `x = ufloat(3, 1)`, `y = ufloat(2, 1)`. -/
def race73P : List (Cmd ZN) := [.ufloat (.fin 3) (.fin 1) none, .ufloat (.fin 2) (.fin 1) none]

/-- `x**y`. -/
def race73Pow : Caller ZN := ⟨BinOp.pow.id, [.ref 0, .ref 1], []⟩

/-- `x*y`. -/
def race73Mul : Caller ZN := ⟨BinOp.mul.id, [.ref 0, .ref 1], []⟩

/-- The first thread takes the first derivative from the iterable, and is then suspended until the second thread has stored the
second one. -/
def race73Sched : List Nat :=
  [0, 0, 0, 0, 1, 1, 1, 1, 1, 0, 0] ++ List.replicate 10 0 ++ List.replicate 10 1

/-- `f(a, b) = 10*a + b`, defined with `*args`, with its derivatives. -/
def race73F : WrapDef ZN where
  f := fun l _ => match l with
    | [.flt a, .flt b] => .ok (.flt (.fin 10 * a + b))
    | _ => .error .typeError
  derivativesArgs := .finite [some (fun _ _ => .ok (.fin 10)), some (fun _ _ => .ok (.fin 1))]
  derivativesKwargs := []
  argspec := some []

/-- `x = ufloat(1, 1)`, `y = ufloat(2, 1)`, `f = wrap(f, [10, 1])`. -/
def race73H : List (Cmd ZN) := [.ufloat (.fin 1) (.fin 1) none, .ufloat (.fin 2) (.fin 1) none, .wrap race73F]

/-- `f(x, y)`. -/
def race73C : Caller ZN := ⟨18, [.ref 0, .ref 1], []⟩

/-- C73 does not hold in general: two threads that are the first ones to calculate `x**y` can exchange for ever the two derivatives of
`**`: all the uncertainties of powers that the program calculates afterwards are wrong. -/
theorem C73_fails : ∃ (m : Machine ZN) (os : List (Option (Out ZN))),
    calls race73P [race73Pow, race73Pow] race73Sched = some (m, os) ∧ (∀ o ∈ os, o ≠ none) ∧
    (m.run [.binop .pow (.ref 0) (.ref 1), .derivatives (.ref 4)]).2 ≠
      ((after (race73P ++ [race73Pow, race73Pow].map Caller.cmd)).run [.binop .pow (.ref 0) (.ref 1), .derivatives (.ref 4)]).2 := by
  cases h : calls race73P [race73Pow, race73Pow] race73Sched with
  | none => exact absurd (congrArg Option.isSome h) (by decide +kernel)
  | some p =>
    refine ⟨p.1, p.2, rfl, ?_, ?_⟩
    · have : ((calls race73P [race73Pow, race73Pow] race73Sched).map fun p => p.2.all Option.isSome) = some true := by decide +kernel
      rw [h] at this
      simp only [Option.map_some, Option.some.injEq, List.all_eq_true] at this
      intro o ho hn
      have := this o ho
      rw [hn] at this
      cases this
    · intro he
      have h1 := congrArg (fun l : List (Out ZN) => l.map (Out.at 1)) he
      have h2 : ((calls race73P [race73Pow, race73Pow] race73Sched).map fun p =>
          (p.1.run [.binop .pow (.ref 0) (.ref 1), .derivatives (.ref 4)]).2.map (Out.at 1)) = some [none, some (.fin 6)] := by
        decide +kernel
      rw [h] at h2
      simp only [Option.map_some, Option.some.injEq] at h2
      simp only [h2] at h1
      exact absurd h1 (by decide +kernel)

/-- C73 does not hold in general: with `f(a, b) = 10*a + b`, the derivatives that the two threads obtain, and those of all the later
calls, are exchanged. -/
theorem C73_fails_exchanged :
    ((calls race73H [race73C, race73C] race73Sched).map fun p =>
      (p.1.run [.derivatives (.ref 2), .derivatives (.ref 3), .call 18 [.ref 0, .ref 1] [], .derivatives (.ref 4)]).2.map
        (fun o => (o.at 0, o.at 1))) =
      some [(some (.fin 1), some (.fin 10)), (some (.fin 1), some (.fin 10)), (none, none), (some (.fin 1), some (.fin 10))] ∧
    ((after (race73H ++ [race73C, race73C].map Caller.cmd)).run
        [.derivatives (.ref 2), .derivatives (.ref 3), .call 18 [.ref 0, .ref 1] [], .derivatives (.ref 4)]).2.map
        (fun o => (o.at 0, o.at 1)) =
      [(some (.fin 10), some (.fin 1)), (some (.fin 10), some (.fin 1)), (none, none), (some (.fin 10), some (.fin 1))] := by
  constructor <;> decide +kernel

/-- C74 does not hold in general: a call of `f` that is interrupted after it has taken a derivative and before it has stored it changes
the results of all the later calls. -/
theorem C74_fails :
    ((calls race73H [race73C] (List.replicate 4 0)).map fun p =>
      (p.2.map Option.isSome, (p.1.run [.call 18 [.ref 0, .ref 1] [], .derivatives (.ref 3)]).2.map (Out.at 0))) =
      some ([false], [none, some (.fin 1)]) ∧
    ((after (race73H ++ [raises])).run [.call 18 [.ref 0, .ref 1] [], .derivatives (.ref 3)]).2.map (Out.at 0) =
      [none, some (.fin 10)] := by
  constructor <;> decide +kernel

/-- `C73_already_used` and `C73_calls_partial`: `x**y` was calculated once; then two threads calculate it at the same time. -/
example : AtMostOneNew (race73P ++ [race73Pow.cmd]) [race73Pow, race73Pow] ∧
    ((calls (race73P ++ [race73Pow.cmd]) [race73Pow, race73Pow] race73Sched).map fun p => p.2.map Option.isSome) = some [true, true] := by
  refine ⟨?_, by decide +kernel⟩
  intro t t' c c' _ hc _ _ hn
  exfalso
  have : c = race73Pow := by simpa using List.mem_of_getElem? hc
  subst this
  obtain ⟨k, x, hk, -, hle⟩ := hn
  have hu : IsUncertain race73P (.ref 0) ∧ IsUncertain race73P (.ref 1) := by
    constructor <;> (unfold IsUncertain; intro h; cases h)
  have hsee : sees race73P race73Pow.cmd = .done := by rfl
  match k, hk with
  | 0, hk => exact absurd (C73_already_used race73P [] _ _ _ hsee (k := 0) (x := .ref 0) rfl hu.1) (by exact Nat.not_lt.mpr hle)
  | 1, hk => exact absurd (C73_already_used race73P [] _ _ _ hsee (k := 1) (x := .ref 1) rfl hu.2) (by exact Nat.not_lt.mpr hle)

/-- `C73_operators`: two threads calculate `x*y`, after no other calculation. -/
example : (∀ c ∈ [race73Mul, race73Mul], c.IsOperator) ∧
    ((calls race73P [race73Mul, race73Mul] race73Sched).map fun p => p.2.map Option.isSome) = some [true, true] := by
  refine ⟨?_, by decide +kernel⟩
  intro c hc
  have : c = race73Mul := by simpa using hc
  subst this
  exact Or.inl ⟨.mul, by decide, Or.inl rfl, by decide⟩

/-- `C74_operators`: the second thread is stopped. -/
example : ((calls race73P [race73Mul, race73Mul] (List.replicate 20 0 ++ [1, 1])).map fun p => p.2.map Option.isSome) =
    some [true, false] := by decide +kernel

/-- `C73_calls_partial` and `C73_named`, with a function that takes its derivatives when it is called: only the first thread needs new
derivatives of `f`. -/
example : AtMostOneNew race73H [race73C, ⟨18, [.const (.flt (.fin 1)), .const (.flt (.fin 2))], []⟩] ∧
    NeedsNew race73H race73C := by
  constructor
  · have hn : ¬ NeedsNew race73H ⟨18, [.const (.flt (.fin 1)), .const (.flt (.fin 2))], []⟩ := by
      rintro ⟨k, x, hk, hu, -⟩
      have hx : x = .const (.flt (.fin 1)) ∨ x = .const (.flt (.fin 2)) := by simpa using List.mem_of_getElem? hk
      rcases hx with rfl | rfl <;> exact hu rfl
    intro t t' c c' hne hc hc' _ h1 h2
    match t, t', hc, hc' with
    | 0, 1, _, hc' => cases hc'; exact hn h2
    | 1, 0, hc, _ => cases hc; exact hn h1
    | 0, 0, _, _ => exact hne rfl
    | 1, 1, _, _ => exact hne rfl
  · exact ⟨0, .ref 0, rfl, (by unfold IsUncertain; intro h; cases h), (by decide +kernel)⟩

/-- `C73_finishes`: the bound, for `x**y`, is 23 operations. -/
example : ∃ o, ((calls race73P [race73Pow, race73Pow] (List.replicate 23 1)).map fun p => p.2[1]?.map Option.isSome) = some o ∧
    o = some true := ⟨some true, by decide +kernel, rfl⟩

/-- `C74_interrupted_partial` and `C74_one_call_partial`: the thread is stopped just after it has stored a derivative, or just before
it takes one. -/
example : stoppedWhileStoring race73H [race73C] (List.replicate 5 0) = false ∧
    stoppedWhileStoring race73H [race73C] (List.replicate 3 0) = false ∧
    stoppedWhileStoring race73H [race73C] (List.replicate 4 0) = true ∧
    ((calls race73H [race73C] (List.replicate 5 0)).map fun p => p.2.map Option.isSome) = some [false] := by
  refine ⟨?_, ?_, ?_, ?_⟩ <;> decide +kernel

/-- `C73_named`: the derivatives of `*` are taken when it is wrapped; those of `**` are not. -/
example : takenBy race73P BinOp.mul.id = 2 ∧ takenBy race73P BinOp.pow.id = 0 := by constructor <;> decide +kernel

end Unc
