import Verif.Lemmas.Threads
import Verif.Lemmas.Iso2
import Verif.Py.ZN

/-
C50: several threads that read quantities at the same time. C51: readings that are interrupted.
-/

namespace Unc

set_option linter.unusedSectionVars false
set_option autoImplicit false

section general
variable {F : Type} [PyMath F]

theorem evalArgs_getRef {α β : Type} {ev : α → Option β} {l : List α} {vs : List β}
    (h : evalArgs ev l = some vs) (t : Nat) : vs[t]? = (l[t]?).bind ev := by
  induction l generalizing vs t with
  | nil => cases h; simp
  | cons a l ih =>
    simp only [evalArgs] at h
    cases ha : ev a with
    | none => rw [ha] at h; cases h
    | some v =>
      rw [ha] at h
      cases hl : evalArgs ev l with
      | none => rw [hl] at h; cases h
      | some ws =>
        rw [hl] at h
        cases h
        cases t with
        | zero => simp [ha]
        | succ t => simpa using ih hl t

/-- What a thread alone sees. -/
theorem sees_kind {m : Machine F} {kind : ReadKind} {x : Arg F} {u : UF F}
    (hx : x.evalUnc m.env = some u) {D : Derivs F}
    (hD : readDerivs m.w.nodes u.lin = (m.w.nodes.set u.lin (.dict D), .ok D)) :
    (m.step (kind.cmd x)).2 = kind.finish m.w.vars u (.ok D) := by
  have hx' : x.eval m.env = some (.unc u) := by
    revert hx
    unfold Arg.evalUnc
    cases hv : x.eval m.env with
    | none => intro h; cases h
    | some v =>
      cases v with
      | unc u' => intro h; cases h; rfl
      | plain _ => intro h; cases h
  have hstd : ∀ (o : Out F) , (match m.w.affStdDev u with
        | (w, .error e) => ((⟨w, m.env⟩ : Machine F), (Out.err e : Out F))
        | (w, .ok s) => (⟨w, m.env⟩, .val (.flt s))).2 = finishStd (errorLoop m.w.vars D) := by
    intro _
    simp only [World.affStdDev, World.errorComponents, World.derivatives, hD, finishStd]
    cases errorLoop m.w.vars D with
    | error e => rfl
    | ok l =>
      simp only
      cases sumSquares (l.map Prod.snd) 0 with
      | error e => rfl
      | ok t =>
        simp only
        cases PyFloat.sqrt t <;> rfl
  cases kind with
  | derivatives =>
    simp only [ReadKind.cmd, Machine.step, Machine.read, hx, World.derivatives, hD, mapRes, Except.map,
      ReadKind.finish]
  | errorComponents =>
    simp only [ReadKind.cmd, Machine.step, Machine.read, hx, World.errorComponents, World.derivatives,
      hD, mapRes, ReadKind.finish]
    cases errorLoop m.w.vars D <;> rfl
  | s =>
    have h1 := hstd .done
    simp only [ReadKind.cmd, Machine.step, Machine.read, hx, mapRes, ReadKind.finish]
    rw [← h1]
    cases m.w.affStdDev u with
    | mk w r => cases r <;> rfl
  | stdDev =>
    have h1 := hstd .done
    simp only [ReadKind.cmd, Machine.step, hx', World.stdDevOf, World.stdDev, ReadKind.finish]
    cases hu : u.var with
    | none =>
      simp only
      rw [← h1]
      cases m.w.affStdDev u with
      | mk w r => cases r <;> rfl
    | some v =>
      simp only
      cases m.w.vars[v]? <;> rfl

end general

variable {F : Type} [PyMath F] [ExactLin F]

/-- Objects with the same meaning, with possibly more derivatives already calculated. -/
theorem Rel.expanded {g : NodeId → Lin F} {m : Machine F} {s : SState F} (h : Rel g m s) {nodes : Heap F}
    (hlen : nodes.length = m.w.nodes.length)
    (hn : ∀ k, nodes[k]? = m.w.nodes[k]? ∨ ∃ D, nodes[k]? = some (.dict D) ∧
      readDerivs m.w.nodes k = (m.w.nodes.set k (.dict D), .ok D)) :
    Rel g ⟨{ m.w with nodes := nodes }, m.env⟩ s := by
  have hok : ∀ v : Val F, v.OK m.w → v.OK { m.w with nodes := nodes } := by
    intro v hv
    cases v with
    | plain _ => trivial
    | unc u => exact ⟨by simp only [hlen]; exact hv.1, hv.2⟩
  refine ⟨⟨?_, ?_, ?_, ?_, h.inv.std, h.inv.wraps, h.inv.ops⟩, h.vars, h.fns, h.env,
    fun v hv => hok v (h.ok v hv)⟩
  · intro k lc hk
    rcases hn k with h1 | ⟨D, h1, h2⟩
    · rw [h1] at hk; exact h.inv.den k lc hk
    · have hkl : k < m.w.nodes.length := by
        rw [← hlen]; exact (List.getElem?_eq_some_iff.mp hk).1
      obtain ⟨d, a1, a2, a3, -⟩ := readDerivs_denotes _ g h.inv.den k hkl
      rw [h1] at hk
      cases hk
      have : d = D := by
        have := a1.symm.trans h2
        simp only [Prod.mk.injEq, Except.ok.injEq] at this
        exact this.2
      subst this
      exact ⟨a2, a3⟩
  · intro i hi
    simp only [hlen] at hi
    exact h.inv.keys i hi
  · intro v cell hv
    obtain ⟨a, b⟩ := h.inv.vars v cell hv
    exact ⟨by simp only [hlen]; exact a, b⟩
  · intro v cell hv
    obtain ⟨d, hd⟩ := h.inv.vdict v cell hv
    rcases hn cell.lin with h1 | ⟨D, h1, -⟩
    · exact ⟨d, by simp only [h1]; exact hd⟩
    · exact ⟨D, h1⟩

/-- Sequences of commands without copies see the same things in related states. -/
theorem Rel.run_eq {g g' : NodeId → Lin F} {m m' : Machine F} {s : SState F} (h : Rel g m s)
    (h' : Rel g' m' s) (cs : List (Cmd F)) (hc : ∀ c ∈ cs, c.isCopy = false) :
    (m.run cs).2 = (m'.run cs).2 := by
  induction cs generalizing g g' m m' s with
  | nil => rfl
  | cons c cs ih =>
    obtain ⟨g1, s1, a1, a2⟩ := Machine.step_refines h c
    obtain ⟨g2, s2, b1, b2⟩ := Machine.step_refines h' c
    have e1 := specStep_eq (hc c (by simp)) a1
    have e2 := specStep_eq (hc c (by simp)) b1
    have e := e1.trans e2.symm
    simp only [Prod.mk.injEq] at e
    obtain ⟨rfl, e⟩ := e
    have := ih a2 b2 (fun c hc' => hc c (by simp [hc']))
    simp only [Machine.run]
    rw [e, this]

/-- **C50**, for threads that do not read the same fresh objects. After any history `cs`, any number of
threads read derivatives, error components or standard deviations at the same time. If none of the
quantities that a thread reads for the first time is read for the first time by another thread, or is
part of the definition of such a quantity (`Separate`), then for every schedule of the operations of the
threads:
1. a thread that is finished has seen what it would have seen alone;
2. threads finish: some number of operations is enough for all of them;
3. when all the threads are finished, the quantities are intact: the rest of the program sees what it
would have seen without the threads (here, without copies).

Missing: two threads that read the same quantity for the first time; `C50_fails` shows that this can go
wrong. -/
theorem C50_concurrent_reads_partial (cs : List (Cmd F)) (rs : List (Reader F)) (us : List (UF F))
    (hus : evalArgs (fun r : Reader F => r.x.evalUnc (after cs).env) rs = some us)
    (hsep : Separate (after cs).w.nodes us) :
    ∃ r0, startReaders (after cs) rs = some r0 ∧
      (∀ sched t rd o, rs[t]? = some rd → (r0.run sched).sees (after cs) t rd.kind = some o →
        o = sees cs (rd.kind.cmd rd.x)) ∧
      (∃ N, ∀ sched t rd, rs[t]? = some rd → N ≤ List.count t sched →
        ∃ o, (r0.run sched).sees (after cs) t rd.kind = some o) ∧
      (∀ sched, (∀ t rd, rs[t]? = some rd → (r0.run sched).sees (after cs) t rd.kind ≠ none) →
        ∀ cs', (∀ c ∈ cs', c.isCopy = false) →
          (((after cs).withRace (r0.run sched)).run cs').2 = ((after cs).run cs').2) := by
  obtain ⟨s, hs⟩ := Reaches.exists cs
  obtain ⟨-, g, hrel⟩ := hs
  have hw : HeapWF (after cs).w.nodes := hrel.inv.den.wf
  have hmem : ∀ u ∈ us, u.lin < (after cs).w.nodes.length := by
    intro u hu
    obtain ⟨t, ht⟩ := List.mem_iff_getElem?.mp hu
    rw [evalArgs_getRef hus t] at ht
    obtain ⟨rd, -, h2⟩ := Option.bind_eq_some_iff.mp ht
    exact (hrel.evalUnc_ok h2).1
  obtain ⟨n, hinv⟩ := RInv.init hw hmem
  refine ⟨_, by simp only [startReaders, hus]; rfl, ?_, ?_, ?_⟩
  · intro sched t rd o hrd ho
    have hr := hinv.run hw hsep sched
    have hu := evalArgs_getRef hus t
    rw [hrd] at hu
    simp only [Option.bind_some] at hu
    cases hx : rd.x.evalUnc (after cs).env with
    | none =>
      rw [hx] at hu
      have := hr.none t hu
      simp [Race.sees, this] at ho
    | some u =>
      rw [hx] at hu
      obtain ⟨pc, a1, a2⟩ := hr.thr t u hu
      simp only [Race.sees, a1] at ho
      cases pc <;> simp only [reduceCtorEq, Option.some.injEq] at ho
      case done res =>
        obtain ⟨D, b1, rfl⟩ := a2.done hw
        rw [← ho]
        exact (sees_kind hx b1).symm
  · refine ⟨(List.range us.length).foldr (fun t a => n t + a) 0, ?_⟩
    intro sched t rd hrd hN
    have hr := hinv.run hw hsep sched
    have hu := evalArgs_getRef hus t
    rw [hrd] at hu
    simp only [Option.bind_some] at hu
    cases hx : rd.x.evalUnc (after cs).env with
    | none =>
      exfalso
      rw [hx] at hu
      have h1 := List.getElem?_eq_none_iff.mp hu
      have h2 := evalArgs_length hus
      have h3 := (List.getElem?_eq_some_iff.mp hrd).1
      omega
    | some u =>
      rw [hx] at hu
      obtain ⟨pc, a1, a2⟩ := hr.thr t u hu
      have hle : ∀ l : List Nat, t ∈ l → n t ≤ l.foldr (fun t a => n t + a) 0 := by
        intro l
        induction l with
        | nil => intro h; simp at h
        | cons a l ih =>
          intro h
          simp only [List.mem_cons] at h
          rcases h with rfl | h
          · simp
          · have := ih h; simp only [List.foldr_cons]; omega
      have htl : t < us.length := (List.getElem?_eq_some_iff.mp hu).1
      have h0 : n t - sched.count t = 0 := by
        have := hle (List.range us.length) (by simpa using htl)
        omega
      rw [h0] at a2
      obtain ⟨res, rfl⟩ := a2.zero
      simp [Race.sees, a1]
  · intro sched hfin cs' hcs'
    have hr := hinv.run hw hsep sched
    have hdone : ∀ (t : Nat) u pc, ((Race.run ⟨(after cs).w.nodes.map LC.cell, us.map fun u => ⟨u, .start⟩⟩ sched).threads)[t]? = some ⟨u, pc⟩ →
        ∃ res, pc = .done res := by
      intro t u pc hpc
      cases ht : us[t]? with
      | none => have := hr.none t ht; rw [this] at hpc; cases hpc
      | some u' =>
        obtain ⟨rd, hrd, -⟩ := Option.bind_eq_some_iff.mp ((evalArgs_getRef hus t).symm.trans ht)
        have := hfin t rd hrd
        simp only [Race.sees, hpc] at this
        cases pc <;> simp only [ne_eq, not_true_eq_false] at this
        exact ⟨_, rfl⟩
    have h1 := hr.finished hdone
    have h2 := Rel.expanded hrel (nodes := Race.heap _) (by simp only [Race.heap, List.length_map]; exact hr.len) h1
    exact Rel.run_eq h2 hrel cs' hcs'


/-- Reading derivatives of several objects in a row. -/
theorem run_derivatives {m : Machine F} (hw : HeapWF m.w.nodes) (rs : List (Reader F)) {us : List (UF F)}
    (hus : evalArgs (fun r : Reader F => r.x.evalUnc m.env) rs = some us)
    (hok : ∀ u ∈ us, u.lin < m.w.nodes.length) :
    (m.run (rs.map fun r => .derivatives r.x)).1.env = m.env ∧
      (∀ (k : NodeId) d, m.w.nodes[k]? = some (.dict d) →
        (m.run (rs.map fun r => .derivatives r.x)).1.w.nodes[k]? = some (.dict d)) ∧
      ∀ u ∈ us, ∃ d, (m.run (rs.map fun r => .derivatives r.x)).1.w.nodes[u.lin]? = some (.dict d) := by
  induction rs generalizing m us with
  | nil =>
    cases hus
    exact ⟨rfl, fun _ _ h => h, by simp⟩
  | cons r rs ih =>
    simp only [evalArgs] at hus
    cases hr : r.x.evalUnc m.env with
    | none => rw [hr] at hus; cases hus
    | some u =>
      rw [hr] at hus
      cases hl : evalArgs (fun r : Reader F => r.x.evalUnc m.env) rs with
      | none => rw [hl] at hus; cases hus
      | some us' =>
        rw [hl] at hus
        cases hus
        have hu := hok u (by simp)
        obtain ⟨D, hD⟩ := readDerivs_terminates m.w.nodes hw u.lin hu
        have hstep : (m.step (.derivatives r.x)).1 =
            ⟨{ m.w with nodes := m.w.nodes.set u.lin (.dict D) }, m.env⟩ := by
          simp only [Machine.step, Machine.read, hr, World.derivatives, hD, mapRes, Except.map]
        have hw' : HeapWF (m.w.nodes.set u.lin (.dict D)) := by
          intro i ts hi
          by_cases hk : u.lin = i
          · subst hk
            rw [List.getElem?_set_self hu] at hi; cases hi
          · rw [List.getElem?_set_ne hk] at hi
            exact hw i ts hi
        have hrun : (m.run ((r :: rs).map fun r => .derivatives r.x)).1 =
            (Machine.run ⟨{ m.w with nodes := m.w.nodes.set u.lin (.dict D) }, m.env⟩
              (rs.map fun r => .derivatives r.x)).1 := by
          rw [← hstep]; rfl
        obtain ⟨a1, a2, a3⟩ := ih (m := ⟨{ m.w with nodes := m.w.nodes.set u.lin (.dict D) }, m.env⟩)
          hw' hl (by intro u' hu'; simp only [List.length_set]; exact hok u' (by simp [hu']))
        rw [hrun]
        refine ⟨a1, ?_, ?_⟩
        · intro k d hk
          apply a2
          by_cases hku : u.lin = k
          · subst hku
            have : D = d := by
              simp only [readDerivs, hk, Prod.mk.injEq, Except.ok.injEq] at hD
              exact hD.2.symm
            subst this
            exact List.getElem?_set_self hu
          · simp only [List.getElem?_set_ne hku]; exact hk
        · intro u' hu'
          simp only [List.mem_cons] at hu'
          rcases hu' with rfl | hu'
          · exact ⟨D, a2 _ _ (List.getElem?_set_self hu)⟩
          · exact a3 u' hu'

/-- **C50**, when the program reads the derivatives of the quantities once before starting the threads:
after any history followed by these readings, any number of threads can read the quantities (also the same
ones) in any order, with the conclusions of `C50_concurrent_reads_partial`. -/
theorem C50_after_reading_partial (cs0 : List (Cmd F)) (rs : List (Reader F))
    (hrs : ∀ rd ∈ rs, ∃ D, sees cs0 (.derivatives rd.x) = .dict D)
    (cs : List (Cmd F)) (hcs : cs = cs0 ++ rs.map fun rd => .derivatives rd.x) :
    ∃ r0, startReaders (after cs) rs = some r0 ∧
      (∀ sched t rd o, rs[t]? = some rd → (r0.run sched).sees (after cs) t rd.kind = some o →
        o = sees cs0 (rd.kind.cmd rd.x)) ∧
      (∃ N, ∀ sched t rd, rs[t]? = some rd → N ≤ List.count t sched →
        ∃ o, (r0.run sched).sees (after cs) t rd.kind = some o) ∧
      (∀ sched, (∀ t rd, rs[t]? = some rd → (r0.run sched).sees (after cs) t rd.kind ≠ none) →
        ∀ cs', (∀ c ∈ cs', c.isCopy = false) →
          (((after cs).withRace (r0.run sched)).run cs').2 = ((after cs0).run cs').2) := by
  obtain ⟨s, hs⟩ := Reaches.exists cs0
  obtain ⟨-, g, hrel⟩ := id hs
  have hev : ∃ us, evalArgs (fun r : Reader F => r.x.evalUnc (after cs0).env) rs = some us := by
    clear hcs
    induction rs with
    | nil => exact ⟨[], rfl⟩
    | cons r rs ih =>
      obtain ⟨us, hus⟩ := ih (fun rd h => hrs rd (by simp [h]))
      obtain ⟨D, hD⟩ := hrs r (by simp)
      cases hx : r.x.evalUnc (after cs0).env with
      | none => simp [sees, Machine.step, Machine.read, hx, Machine.invalid] at hD
      | some u => exact ⟨u :: us, by simp [evalArgs, hx, hus]⟩
  obtain ⟨us, hus⟩ := hev
  have hmem : ∀ u ∈ us, u.lin < (after cs0).w.nodes.length := by
    intro u hu
    obtain ⟨t, ht⟩ := List.mem_iff_getElem?.mp hu
    rw [evalArgs_getRef hus t] at ht
    obtain ⟨rd, -, h2⟩ := Option.bind_eq_some_iff.mp ht
    exact (hrel.evalUnc_ok h2).1
  obtain ⟨h1, -, h3⟩ := run_derivatives hrel.inv.den.wf rs hus hmem
  have haft : after cs = ((after cs0).run (rs.map fun rd => .derivatives rd.x)).1 := by
    rw [hcs, after_append]
  have hus' : evalArgs (fun r : Reader F => r.x.evalUnc (after cs).env) rs = some us := by
    rw [haft, h1]; exact hus
  have hsep : Separate (after cs).w.nodes us := by
    intro t t' u u' _ hu _ hf
    obtain ⟨d, hd⟩ := h3 u (List.mem_of_getElem? hu)
    obtain ⟨ts, hts⟩ := hf
    rw [haft, hd] at hts
    cases hts
  have hreads : ∀ c ∈ rs.map (fun rd : Reader F => (.derivatives rd.x : Cmd F)), c.isRead = true := by
    intro c hc
    obtain ⟨rd, -, rfl⟩ := List.mem_map.mp hc
    rfl
  have hs' : Reaches cs s := by
    rw [hcs]; exact hs.reads hreads
  obtain ⟨-, g', hrel'⟩ := id hs'
  obtain ⟨r0, a1, a2, a3, a4⟩ := C50_concurrent_reads_partial cs rs us hus' hsep
  refine ⟨r0, a1, ?_, a3, ?_⟩
  · intro sched t rd o hrd ho
    rw [a2 sched t rd o hrd ho]
    have hr : (rd.kind.cmd rd.x).isRead = true := by cases rd.kind <;> rfl
    rw [(hs.read hr).1, (hs'.read hr).1]
  · intro sched hfin cs' hc
    rw [a4 sched hfin cs' hc]
    exact Rel.run_eq hrel' hrel cs' hc


/-! ### Interruptions -/

/-- State of the program when the reading of the derivatives of `x` is stopped by an exception after `n`
operations. -/
def interrupted (m : Machine F) (x : Arg F) (n : Nat) : Machine F :=
  match startReaders m [⟨.derivatives, x⟩] with
  | none => m
  | some r => m.withRace (r.run (List.replicate n 0))

/-- Where the reading was when it was stopped. -/
def interruptedAt (m : Machine F) (x : Arg F) (n : Nat) : Option (Pc F) :=
  match startReaders m [⟨.derivatives, x⟩] with
  | none => none
  | some r => ((r.run (List.replicate n 0)).threads[0]?).map Thread.pc

/-- **C51**, for what is not lost. After any history `cs`, the reading of the derivatives of a quantity
`x` is interrupted after any number `n` of operations.
1. If `x` is a variable, or if its derivatives had already been read, then nothing changes.
2. In all cases, reading any quantity `y` that is not `x` and whose definition does not use `x` gives
what it would have given without the interrupted reading.
3. If the interruption takes place before the first term of `x` is handled, or after the storage of the
derivatives (line 1577), then the rest of the program sees what it would have seen without the
interrupted reading.

Missing: interruptions between these points; `C51_fails` shows that they give wrong derivatives. -/
theorem C51_interrupted_reads_partial (cs : List (Cmd F)) (x : Arg F) (u : UF F)
    (hx : x.evalUnc (after cs).env = some u) (n : Nat) :
    (¬ Fresh (after cs).w.nodes u.lin → interrupted (after cs) x n = after cs) ∧
    (∀ kind y uy, y.evalUnc (after cs).env = some uy → uy.lin ≠ u.lin →
      ¬ Uses (after cs).w.nodes uy.lin u.lin →
      ((interrupted (after cs) x n).step (kind.cmd y)).2 = sees cs (ReadKind.cmd kind y)) ∧
    ((n ≤ 2 ∨ ∃ pc, interruptedAt (after cs) x n = some pc ∧
        (pc = .clear ∨ pc = .ret ∨ ∃ r, pc = .done r)) →
      ∀ cs', (∀ c ∈ cs', c.isCopy = false) →
        ((interrupted (after cs) x n).run cs').2 = ((after cs).run cs').2) := by
  obtain ⟨s, hs⟩ := Reaches.exists cs
  obtain ⟨-, g, hrel⟩ := hs
  have hw : HeapWF (after cs).w.nodes := hrel.inv.den.wf
  have hok : ∀ {y : Arg F} {uy : UF F}, y.evalUnc (after cs).env = some uy →
      uy.lin < (after cs).w.nodes.length := fun h => (hrel.evalUnc_ok h).1
  obtain ⟨b, hinv⟩ := RInv.init hw (us := [u]) (by simpa using hok hx)
  have hsep := Separate.one (after cs).w.nodes u
  have hr := hinv.run hw hsep (List.replicate n 0)
  have hstart : startReaders (after cs) [⟨.derivatives, x⟩] =
      some ⟨(after cs).w.nodes.map LC.cell, [u].map fun u => ⟨u, .start⟩⟩ := by
    simp only [startReaders, evalArgs, hx]; rfl
  have hint : interrupted (after cs) x n =
      (after cs).withRace (Race.run ⟨(after cs).w.nodes.map LC.cell, [u].map fun u => ⟨u, .start⟩⟩
        (List.replicate n 0)) := by simp only [interrupted, hstart]
  have hat : interruptedAt (after cs) x n =
      ((Race.run ⟨(after cs).w.nodes.map LC.cell, [u].map fun u => ⟨u, .start⟩⟩
        (List.replicate n 0)).threads[0]?).map Thread.pc := by simp only [interruptedAt, hstart]
  rw [hint, hat]
  obtain ⟨o1, o2, o3⟩ := hr.one hw
  refine ⟨?_, ?_, ?_⟩
  · intro hf
    have : Race.heap (Race.run ⟨(after cs).w.nodes.map LC.cell, [u].map fun u => ⟨u, .start⟩⟩
        (List.replicate n 0)) = (after cs).w.nodes := by
      apply List.ext_getElem?
      intro k
      apply o2
      by_cases hk : k = u.lin
      · right; rw [hk]; exact hf
      · left; exact hk
    simp only [Machine.withRace, this]
  · intro kind y uy hy hne hnu
    obtain ⟨D, h1, h2⟩ := readDerivs_frame hw o1 (hok hy) (o2 uy.lin (Or.inl hne))
      (fun j hj => o2 j (Or.inl (by rintro rfl; exact hnu hj)))
    have h3 := sees_kind (m := after cs) (kind := kind) hy h1
    have h4 := sees_kind (m := (after cs).withRace _) (kind := kind) (x := y) (u := uy) hy h2
    exact h4.trans h3.symm
  · intro hpos cs' hcs'
    apply Rel.run_eq (g := g) (s := s) _ hrel cs' hcs'
    apply Rel.expanded hrel o3
    intro k
    by_cases hk : k ≠ u.lin ∨ ¬ Fresh (after cs).w.nodes k
    · exact Or.inl (o2 k hk)
    · push Not at hk
      obtain ⟨rfl, init, hinit⟩ := hk
      rcases hpos with hn | ⟨pc, hpc, hpc'⟩
      · left
        have hc : ((after cs).w.nodes.map LC.cell)[u.lin]? = some ⟨init, none⟩ := by
          simp [hinit, LC.cell]
        have hcells : (Race.run ⟨(after cs).w.nodes.map LC.cell, [u].map fun u => ⟨u, .start⟩⟩
            (List.replicate n 0)).cells = (after cs).w.nodes.map LC.cell := by
          have h0 : ∀ d : Derivs F, (Pc.step u.lin ((after cs).w.nodes.map LC.cell) (.loop d)).1 =
              (after cs).w.nodes.map LC.cell := by
            intro d
            simp only [Pc.step, hc]
            cases init <;> rfl
          obtain rfl | rfl | rfl : n = 0 ∨ n = 1 ∨ n = 2 := by omega
          · rfl
          · simp [Race.run, Race.step, Pc.step, hc]
          · have h1 : Race.step ⟨(after cs).w.nodes.map LC.cell, [u].map fun u => ⟨u, .start⟩⟩ 0 =
                ⟨(after cs).w.nodes.map LC.cell, [⟨u, .loop []⟩]⟩ := by
              simp [Race.step, Pc.step, hc]
            simp only [List.replicate, Race.run]
            rw [h1]
            simp only [Race.step, List.getElem?_cons_zero, h0]
        simp only [Race.heap, hcells, lc_cell]
      · right
        obtain ⟨pc', h1, h2⟩ := hr.thr 0 u rfl
        rw [h1] at hpc
        simp only [Option.map_some, Option.some.injEq] at hpc
        subst hpc
        rcases h2 with ⟨init', D, cell, hi, hD, hc, h3, -⟩ | ⟨D, hi, -⟩
        · refine ⟨D, ?_, hD⟩
          have : ∃ ts, cell = ⟨ts, some D⟩ := by
            rcases hpc' with rfl | rfl | ⟨res, rfl⟩
            · exact h3
            · exact h3
            · exact h3.1
          obtain ⟨ts, rfl⟩ := this
          simp only [Race.heap, List.getElem?_map, hc, Option.map_some, TCell.lc]
        · rw [hi] at hinit; cases hinit

/-! ### Examples, and what goes wrong -/

/-- `a`, `b`, `x = a + b`, `y = a - b`, `z = x + y`. -/
def exC50 : List (Cmd ZN) :=
  [.ufloat (.fin 3) (.fin 1) none, .ufloat (.fin 5) (.fin 2) none, .binop .add (.ref 0) (.ref 1),
   .binop .sub (.ref 0) (.ref 1), .binop .add (.ref 2) (.ref 3)]

/-- The schedule of two threads that read `x` for the first time: both take one of the two terms of `x`;
the second thread then finishes. -/
def exSched : List Nat := [0, 0, 0, 1, 1, 1, 1, 1, 1, 1, 1, 1, 0, 0, 0, 0]

/-- **C50 fails** for two threads that read the same fresh quantity: the second thread silently sees
wrong derivatives, the first one sees an exception, and the derivatives of the quantity are wrong
afterwards. -/
theorem C50_fails : ∃ (cs : List (Cmd ZN)) (x : Arg ZN) (r0 : Race ZN) (sched : List Nat),
    startReaders (after cs) [⟨.derivatives, x⟩, ⟨.derivatives, x⟩] = some r0 ∧
    sees cs (.derivatives x) = .dict (fun v => [(1, ZN.fin 1), (0, ZN.fin 1)].lookup v) ∧
    (r0.run sched).sees (after cs) 1 .derivatives = some (.dict (fun v => [(0, ZN.fin 1)].lookup v)) ∧
    (r0.run sched).sees (after cs) 0 .derivatives = some (.err .typeError) ∧
    (((after cs).withRace (r0.run sched)).step (.derivatives x)).2 =
      .dict (fun v => [(0, ZN.fin 1)].lookup v) :=
  ⟨exC50, .ref 2, _, exSched, rfl, rfl, rfl, rfl, rfl⟩

/-- The values above are not the same. -/
example : (Out.dict (fun v => [(1, ZN.fin 1), (0, ZN.fin 1)].lookup v) : Out ZN) ≠
    .dict (fun v => [(0, ZN.fin 1)].lookup v) := by
  intro h
  simp only [Out.dict.injEq] at h
  have := congrFun h 1
  simp [List.lookup] at this

/-- **C51 fails** for an interruption in the loop: the derivatives of `x` that are read later miss a
variable. -/
theorem C51_fails : ∃ (cs : List (Cmd ZN)) (x : Arg ZN) (n : Nat),
    sees cs (.derivatives x) = .dict (fun v => [(1, ZN.fin 1), (0, ZN.fin 1)].lookup v) ∧
    ((interrupted (after cs) x n).step (.derivatives x)).2 =
      .dict (fun v => [(0, ZN.fin 1)].lookup v) :=
  ⟨exC50, .ref 2, 3, rfl, rfl⟩

/-- `x` and `y` are separate: two threads can read them (and a third one can read `a`). -/
example : ∃ us, evalArgs (fun r : Reader ZN => r.x.evalUnc (after exC50).env)
      [⟨.derivatives, .ref 2⟩, ⟨.stdDev, .ref 3⟩, ⟨.stdDev, .ref 0⟩] = some us ∧
    Separate (after exC50).w.nodes us ∧ Fresh (after exC50).w.nodes 2 ∧ Fresh (after exC50).w.nodes 3 := by
  refine ⟨_, rfl, ?_, ⟨_, rfl⟩, ⟨_, rfl⟩⟩
  have hn : (after exC50).w.nodes[0]? = some (.dict [(0, ZN.fin 1)]) := rfl
  have hn1 : (after exC50).w.nodes[1]? = some (.dict [(1, ZN.fin 1)]) := rfl
  have hw : HeapWF (after exC50).w.nodes := by
    obtain ⟨s, -, g, h⟩ := Reaches.exists exC50
    exact h.inv.den.wf
  have hx : (after exC50).w.nodes[2]? = some (.terms [.pair (.fin 1) 1, .pair (.fin 1) 0]) := rfl
  have hy : (after exC50).w.nodes[3]? = some (.terms [.pair (.fin (-1)) 1, .pair (.fin 1) 0]) := rfl
  have hux : ∀ j, Uses (after exC50).w.nodes 2 j → j < 2 := fun j h => h.lt hw
  have huy : ∀ j, Uses (after exC50).w.nodes 3 j → j < 2 := by
    intro j h
    induction h with
    | direct h1 h2 =>
      rw [hy] at h1
      cases h1
      simp at h2
      omega
    | step _ h1 h2 ih =>
      obtain ⟨c, n, h3, h4⟩ := hw _ _ h1 _ h2
      cases h3; omega
  intro t t' u u' hne h1 h2 hf hf'
  have key : ∀ (t : Nat) (u : UF ZN), ([⟨.fin 8, 2, none⟩, ⟨.fin (-2), 3, none⟩, ⟨.fin 3, 0, some 0⟩] : List (UF ZN))[t]? = some u →
      Fresh (after exC50).w.nodes u.lin → (t = 0 ∧ u.lin = 2) ∨ (t = 1 ∧ u.lin = 3) := by
    intro t u h hf
    match t, h with
    | 0, h => cases h; exact Or.inl ⟨rfl, rfl⟩
    | 1, h => cases h; exact Or.inr ⟨rfl, rfl⟩
    | 2, h => cases h; obtain ⟨ts, h⟩ := hf; rw [hn] at h; cases h
    | t + 3, h => simp at h
  have a := key t u h1 hf
  have b := key t' u' h2 hf'
  rcases a with ⟨rfl, e⟩ | ⟨rfl, e⟩ <;> rcases b with ⟨rfl, e'⟩ | ⟨rfl, e'⟩
  · exact absurd rfl hne
  · rw [e, e']; exact ⟨by omega, fun h => by have := hux _ h; omega⟩
  · rw [e, e']; exact ⟨by omega, fun h => by have := huy _ h; omega⟩
  · exact absurd rfl hne

/-- Threads can also read `x` and `z = x + y` if the derivatives are read before. -/
example : ∀ rd ∈ ([⟨.derivatives, .ref 2⟩, ⟨.stdDev, .ref 4⟩, ⟨.s, .ref 2⟩] : List (Reader ZN)),
    ∃ D, sees exC50 (.derivatives rd.x) = .dict D := by
  intro rd h
  simp only [List.mem_cons, List.not_mem_nil, or_false] at h
  rcases h with rfl | rfl | rfl
  · exact ⟨_, rfl⟩
  · exact ⟨_, rfl⟩
  · exact ⟨_, rfl⟩

/-- Interrupting the reading of `x` does not change `y`. -/
example : ∃ u uy, (Arg.ref 2).evalUnc (after exC50).env = some u ∧
    (Arg.ref 3).evalUnc (after exC50).env = some uy ∧ uy.lin ≠ u.lin ∧ Fresh (after exC50).w.nodes u.lin ∧
    ((interrupted (after exC50) (.ref 2) 3).step (.derivatives (.ref 3))).2 =
      .dict (fun v => [(1, ZN.fin (-1)), (0, ZN.fin 1)].lookup v) :=
  ⟨_, _, rfl, rfl, by decide, ⟨_, rfl⟩, rfl⟩

end Unc
