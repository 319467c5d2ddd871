import Verif.Lemmas.SameWraps
import Verif.Spec.ThreadCalls

/-
Calls made by several threads: invariant of the threads and of the wrapped functions.
-/

namespace Unc

set_option linter.unusedSectionVars false
set_option autoImplicit false

variable {F : Type}

/-- Is the thread between `next()` and `append()`? -/
def CallPc.isAppend : CallPc F → Bool
  | .append .. => true
  | _ => false

/-- Is the thread in `IndexableIter.__getitem__`, after the `IndexError`? -/
def CallPc.busy : CallPc F → Bool
  | .range .. | .next .. | .append .. | .get .. => true
  | _ => false

/-- Is the call finished? -/
def CallPc.isDone : CallPc F → Bool
  | .done _ => true
  | _ => false

/-- Does this call need derivatives of number `N` or more? -/
def ColdArgs (N : Nat) (args : List (Val F)) : Prop := ∃ k u, args[k]? = some (.unc u) ∧ N ≤ k

section
variable [PyFloat F]

/-- What the call will give. -/
def CallPc.result (df : WrapDef F) (args : List (Val F)) (kwargs : List (String × Val F)) : CallPc F → CallOut F
  | .start => callSpec df args kwargs
  | .pos v k rest acc => posEnd df args kwargs v k rest acc
  | .range v k u rest acc => posEnd df args kwargs v k (.unc u :: rest) acc
  | .next v k u rest acc _ => posEnd df args kwargs v k (.unc u :: rest) acc
  | .append v k u rest acc _ _ => posEnd df args kwargs v k (.unc u :: rest) acc
  | .get v k u rest acc => posEnd df args kwargs v k (.unc u :: rest) acc
  | .kw v rest acc => kwEnd df (args.map Val.nominal) (kwargs.map fun p => (p.1, p.2.nominal)) v rest acc
  | .done r => r

/-- Invariant of a thread; `N` is the number of elements that were already fetched when the threads started. -/
def CallPc.TOK (N : Nat) (args : List (Val F)) (wf : Wrapped F) : CallPc F → Prop
  | .pos _ k rest _ => args.drop k = rest
  | .range _ k u rest _ => args.drop k = .unc u :: rest ∧ N ≤ k
  | .next _ k u rest _ p => args.drop k = .unc u :: rest ∧ N ≤ k ∧ p = wf.iter.returnedElements.length
  | .append _ k u rest _ p value =>
    args.drop k = .unc u :: rest ∧ N ≤ k ∧ p = wf.iter.returnedElements.length ∧ value = wf.iter.value p
  | .get _ k u rest _ => args.drop k = .unc u :: rest ∧ N ≤ k ∧ k < wf.iter.returnedElements.length
  | _ => True

/-- Invariant of a wrapped function, except for the number of elements taken. -/
structure Core (df : WrapDef F) (N : Nat) (wf : Wrapped F) : Prop where
  df : wf.df = df
  stream : wf.iter.stream = wf.df.derivativesArgs.chained
  nones : wf.iter.noneConverter = fun i => some (partialDerivative wf.df.f (.pos i))
  elems : ∀ i, i < wf.iter.returnedElements.length → wf.iter.returnedElements[i]? = some (wf.iter.value i)
  len : N ≤ wf.iter.returnedElements.length
  kw : ∀ name d, wf.kw.lookup name = some d → d = wf.df.specKw name
  kwNone : ∀ name, wf.kw.lookup name = none → wf.df.specKw name = partialDerivative wf.df.f (.kw name)

theorem Core.of_ok {wf : Wrapped F} (h : wf.OK) : Core wf.df wf.iter.returnedElements.length wf :=
  ⟨rfl, h.stream, h.nones, h.iter.elems, Nat.le_refl _, h.kw, h.kwNone⟩

theorem Core.ok {df : WrapDef F} {N : Nat} {wf : Wrapped F} (h : Core df N wf) (ht : wf.iter.taken = wf.iter.returnedElements.length) :
    wf.OK := ⟨h.stream, h.nones, ⟨ht, h.elems⟩, h.kw, h.kwNone⟩

theorem Core.value {df : WrapDef F} {N : Nat} {wf : Wrapped F} (h : Core df N wf) (i : Nat) :
    wf.iter.value i = some (df.specPos i) := by
  unfold IndexableIter.value
  rw [h.stream, h.nones, ← h.df, chained_specPos]
  cases wf.df.derivativesArgs.chained i <;> rfl

theorem TOK_cold {N : Nat} {args : List (Val F)} {wf : Wrapped F} {pc : CallPc F} (h : pc.TOK N args wf) (hb : pc.busy = true) :
    ColdArgs N args := by
  have key : ∀ (k : Nat) (u : UF F) (rest : List (Val F)), args.drop k = .unc u :: rest → N ≤ k → ColdArgs N args := by
    intro k u rest hd hk
    refine ⟨k, u, ?_, hk⟩
    have : (args.drop k)[0]? = some (.unc u) := by rw [hd]; rfl
    rwa [List.getElem?_drop, Nat.add_zero] at this
  cases pc with
  | range v k u rest acc => exact key k u rest h.1 h.2
  | next v k u rest acc p => exact key k u rest h.1 h.2.1
  | append v k u rest acc p value => exact key k u rest h.1 h.2.1
  | get v k u rest acc => exact key k u rest h.1 h.2.1
  | _ => cases hb

theorem TOK_quiet {N : Nat} {args : List (Val F)} {wf wf' : Wrapped F} {pc : CallPc F} (h : pc.TOK N args wf) (hb : pc.busy = false) :
    pc.TOK N args wf' := by
  cases pc with
  | range v k u rest acc => cases hb
  | next v k u rest acc p => cases hb
  | append v k u rest acc p value => cases hb
  | get v k u rest acc => cases hb
  | pos v k rest acc => exact h
  | _ => exact True.intro

theorem TOK_iter {N : Nat} {args : List (Val F)} {wf wf' : Wrapped F} {pc : CallPc F} (h : pc.TOK N args wf)
    (hi : wf'.iter = wf.iter) : pc.TOK N args wf' := by
  cases pc <;> simp only [CallPc.TOK, hi] at h ⊢ <;> exact h

theorem drop_tail {α : Type} {l : List α} {k : Nat} {a : α} {rest : List α} (h : l.drop k = a :: rest) : l.drop (k + 1) = rest := by
  rw [← List.drop_drop, h]; rfl

theorem drop_succ_some {α : Type} {l : List α} {k : Nat} {a : α} {rest : List α} (h : l.drop k = a :: rest) : l[k]? = some a := by
  have : (l.drop k)[0]? = some a := by rw [h]; rfl
  rwa [List.getElem?_drop, Nat.add_zero] at this

/-- What is left unchanged by the use of a derivative. -/
theorem coef_ok {df : WrapDef F} {N : Nat} {args : List (Val F)} {kwargs : List (String × Val F)} {wf : Wrapped F}
    {v : PyVal F} {k : Nat} {u : UF F} {rest : List (Val F)} {acc : List (Item F)} (hd : args.drop k = .unc u :: rest) :
    (CallPc.coef args kwargs v k u rest acc (some (df.specPos k))).TOK N args wf ∧
    (CallPc.coef args kwargs v k u rest acc (some (df.specPos k))).busy = false ∧
    (CallPc.coef args kwargs v k u rest acc (some (df.specPos k))).result df args kwargs =
      posEnd df args kwargs v k (.unc u :: rest) acc := by
  simp only [CallPc.coef, posEnd, posSpec]
  cases df.specPos k (args.map Val.nominal) (kwargs.map fun p => (p.1, p.2.nominal)) with
  | error e => exact ⟨True.intro, rfl, rfl⟩
  | ok c => exact ⟨drop_tail hd, rfl, rfl⟩

theorem not_append_of_quiet {pc : CallPc F} (h : pc.busy = false) : pc.isAppend = false := by
  cases pc <;> simp_all [CallPc.busy, CallPc.isAppend]

/-- One operation of a thread. -/
theorem step_ok {df : WrapDef F} {N : Nat} {args : List (Val F)} {kwargs : List (String × Val F)} {wf wf' : Wrapped F}
    {pc pc' : CallPc F} (hc : Core df N wf) (ht : pc.TOK N args wf)
    (htaken : pc.busy = true → wf.iter.taken = wf.iter.returnedElements.length + (if pc.isAppend then 1 else 0))
    (hs : pc.step args kwargs wf = (wf', pc')) :
    Core df N wf' ∧ pc'.TOK N args wf' ∧ pc'.result df args kwargs = pc.result df args kwargs ∧
    ((wf'.iter = wf.iter ∧ pc'.isAppend = false ∧ pc.isAppend = false) ∨
     (pc.busy = true ∧ pc'.busy = true ∧
      wf'.iter.taken = wf'.iter.returnedElements.length + (if pc'.isAppend then 1 else 0))) := by
  cases pc with
  | start =>
    simp only [CallPc.step, hc.df] at hs
    simp only [CallPc.result, callSpec]
    cases hf : df.f (args.map Val.nominal) (kwargs.map fun p => (p.1, p.2.nominal)) with
    | error e =>
      rw [hf] at hs; cases hs
      exact ⟨hc, True.intro, rfl, .inl ⟨rfl, rfl, rfl⟩⟩
    | ok v =>
      rw [hf] at hs
      simp only at hs ⊢
      split at hs
      · rename_i h1
        cases hs
        rw [if_pos h1]
        exact ⟨hc, True.intro, rfl, .inl ⟨rfl, rfl, rfl⟩⟩
      · rename_i h1
        rw [if_neg h1]
        split at hs
        · rename_i h2
          cases hs
          rw [if_pos h2]
          exact ⟨hc, True.intro, rfl, .inl ⟨rfl, rfl, rfl⟩⟩
        · rename_i h2
          cases hs
          rw [if_neg h2]
          exact ⟨hc, rfl, rfl, .inl ⟨rfl, rfl, rfl⟩⟩
  | pos v k rest acc =>
    simp only [CallPc.TOK] at ht
    cases rest with
    | nil =>
      cases hs
      exact ⟨hc, True.intro, rfl, .inl ⟨rfl, rfl, rfl⟩⟩
    | cons a rest =>
      cases a with
      | plain x =>
        cases hs
        exact ⟨hc, drop_tail ht, rfl, .inl ⟨rfl, rfl, rfl⟩⟩
      | unc u =>
        simp only [CallPc.step] at hs
        cases hk : wf.iter.returnedElements[k]? with
        | none =>
          rw [hk] at hs
          cases hs
          have : wf.iter.returnedElements.length ≤ k := by simpa using hk
          exact ⟨hc, ⟨ht, Nat.le_trans hc.len this⟩, rfl, .inl ⟨rfl, rfl, rfl⟩⟩
        | some o =>
          rw [hk] at hs
          have hlt : k < wf.iter.returnedElements.length := by
            have := (List.getElem?_eq_some_iff.mp hk).1; exact this
          have ho : o = some (df.specPos k) := by
            have := hc.elems k hlt
            rw [hk, hc.value] at this
            exact Option.some.inj this
          subst ho
          cases hs
          obtain ⟨h1, h2, h3⟩ := coef_ok (df := df) (N := N) (kwargs := kwargs) (wf := wf) (v := v) (acc := acc) ht
          exact ⟨hc, h1, h3, .inl ⟨rfl, not_append_of_quiet h2, rfl⟩⟩
  | range v k u rest acc =>
    cases hs
    exact ⟨hc, ⟨ht.1, ht.2, rfl⟩, rfl, .inl ⟨rfl, rfl, rfl⟩⟩
  | next v k u rest acc p =>
    obtain ⟨h1, h2, h3⟩ := ht
    have htk := htaken rfl
    simp only [CallPc.isAppend, Bool.false_eq_true, if_false, Nat.add_zero] at htk
    simp only [CallPc.step] at hs
    split at hs
    · cases hs
      refine ⟨⟨hc.df, hc.stream, hc.nones, hc.elems, hc.len, hc.kw, hc.kwNone⟩, ⟨h1, h2, h3, ?_⟩, rfl, .inr ⟨rfl, rfl, ?_⟩⟩
      · simp only [IndexableIter.value, htk, ← h3]
        cases wf.iter.stream p <;> rfl
      · simp [CallPc.isAppend, htk]
    · cases hs
      exact ⟨hc, ⟨h1, h2, by omega⟩, rfl, .inl ⟨rfl, rfl, rfl⟩⟩
  | append v k u rest acc p value =>
    obtain ⟨h1, h2, h3, h4⟩ := ht
    have htk := htaken rfl
    simp only [CallPc.isAppend, if_true] at htk
    cases hs
    refine ⟨⟨hc.df, hc.stream, hc.nones, ?_, ?_, hc.kw, hc.kwNone⟩, ⟨h1, h2, ?_⟩, rfl, .inr ⟨rfl, rfl, ?_⟩⟩
    · intro i hi
      simp only [List.length_append, List.length_singleton] at hi
      simp only
      by_cases hlt : i < wf.iter.returnedElements.length
      · rw [List.getElem?_append_left hlt]; exact hc.elems i hlt
      · have : i = wf.iter.returnedElements.length := by omega
        subst this
        rw [List.getElem?_concat_length, h4, h3]
        rfl
    · have := hc.len
      simp only [List.length_append, List.length_singleton]
      omega
    · simp [h3]
    · simp [CallPc.isAppend, htk]
  | get v k u rest acc =>
    obtain ⟨h1, h2, h3⟩ := ht
    have hk := hc.elems k h3
    rw [hc.value] at hk
    simp only [CallPc.step, hk] at hs
    cases hs
    obtain ⟨g1, g2, g3⟩ := coef_ok (df := df) (N := N) (kwargs := kwargs) (wf := wf) (v := v) (acc := acc) h1
    exact ⟨hc, g1, g3, .inl ⟨rfl, not_append_of_quiet g2, rfl⟩⟩
  | kw v rest acc =>
    cases rest with
    | nil =>
      simp only [CallPc.step] at hs
      simp only [CallPc.result, kwEnd, kwSpec]
      cases hv : v.toFloat with
      | error e =>
        rw [hv] at hs; cases hs
        exact ⟨hc, True.intro, rfl, .inl ⟨rfl, rfl, rfl⟩⟩
      | ok x =>
        rw [hv] at hs; cases hs
        exact ⟨hc, True.intro, rfl, .inl ⟨rfl, rfl, rfl⟩⟩
    | cons a rest =>
      obtain ⟨name, a⟩ := a
      cases a with
      | plain x =>
        cases hs
        exact ⟨hc, True.intro, rfl, .inl ⟨rfl, rfl, rfl⟩⟩
      | unc u =>
        -- The dictionary of keyword derivatives does not depend on the iterator
        have hok : ({ wf with iter := { wf.iter with taken := wf.iter.returnedElements.length } } : Wrapped F).OK :=
          Core.ok (df := df) (N := N) ⟨hc.df, hc.stream, hc.nones, hc.elems, hc.len, hc.kw, hc.kwNone⟩ rfl
        obtain ⟨wf1, a1, a2, a3⟩ := Wrapped.kwDeriv_ok hok name
        have hkd : ∃ kw', wf.kwDeriv name = ({ wf with kw := kw' }, wf.df.specKw name) ∧ wf1.kw = kw' := by
          unfold Wrapped.kwDeriv at a1 ⊢
          simp only at a1
          cases hl : wf.kw.lookup name with
          | some d =>
            rw [hl] at a1
            simp only [Prod.mk.injEq] at a1
            refine ⟨wf.kw, ?_, by rw [← a1.1]⟩
            simp [a1.2]
          | none =>
            rw [hl] at a1
            simp only [Prod.mk.injEq] at a1
            exact ⟨wf.kw ++ [(name, partialDerivative wf.df.f (.kw name))], by simp [a1.2], by rw [← a1.1]⟩
        obtain ⟨kw', b1, b2⟩ := hkd
        have hc' : Core df N { wf with kw := kw' } := by
          refine ⟨hc.df, hc.stream, hc.nones, hc.elems, hc.len, ?_, ?_⟩
          · intro n d hn
            have := a2.kw n d (by rw [b2]; exact hn)
            rw [a3] at this; exact this
          · intro n hn
            have := a2.kwNone n (by rw [b2]; exact hn)
            rw [a3] at this; exact this
        have hsp : wf.df.specKw name = df.specKw name := by rw [hc.df]
        rw [hsp] at b1
        simp only [CallPc.step, b1] at hs
        simp only [CallPc.result, kwEnd, kwSpec]
        cases hd : df.specKw name (args.map Val.nominal) (kwargs.map fun p => (p.1, p.2.nominal)) with
        | error e =>
          rw [hd] at hs; cases hs
          exact ⟨hc', True.intro, rfl, .inl ⟨rfl, rfl, rfl⟩⟩
        | ok c =>
          rw [hd] at hs; cases hs
          exact ⟨hc', True.intro, rfl, .inl ⟨rfl, rfl, rfl⟩⟩
  | done r =>
    cases hs
    exact ⟨hc, True.intro, rfl, .inl ⟨rfl, rfl, rfl⟩⟩

/-! ### Races -/

/-- The threads are those that started, with other positions in the code. -/
structure CallInv (r0 r : CallRace F) : Prop where
  len : r.wraps.length = r0.wraps.length
  tlen : r.threads.length = r0.threads.length
  core : ∀ (f : Nat) wf0 wf, r0.wraps[f]? = some wf0 → r.wraps[f]? = some wf → Core wf0.df wf0.iter.returnedElements.length wf
  quiet : ∀ (f : Nat) wf, r.wraps[f]? = some wf →
    (∀ (t : Nat) th, r.threads[t]? = some th → th.f = f → th.pc.isAppend = false) → wf.iter.taken = wf.iter.returnedElements.length
  app : ∀ (f : Nat) wf, r.wraps[f]? = some wf →
    ∀ (t : Nat) th, r.threads[t]? = some th → th.f = f → th.pc.isAppend = true → wf.iter.taken = wf.iter.returnedElements.length + 1
  same : ∀ (t : Nat) th0 th, r0.threads[t]? = some th0 → r.threads[t]? = some th →
    th.f = th0.f ∧ th.args = th0.args ∧ th.kwargs = th0.kwargs
  tok : ∀ (t : Nat) th wf0 wf, r.threads[t]? = some th → r0.wraps[th.f]? = some wf0 → r.wraps[th.f]? = some wf →
    th.pc.TOK wf0.iter.returnedElements.length th.args wf ∧
    th.pc.result wf0.df th.args th.kwargs = callSpec wf0.df th.args th.kwargs

/-- At most one thread needs derivatives of a function that were not used yet. -/
def OneCold (r0 : CallRace F) : Prop :=
  ∀ (t t' : Nat) th th' wf, t ≠ t' → r0.threads[t]? = some th → r0.threads[t']? = some th' → th.f = th'.f →
    r0.wraps[th.f]? = some wf →
    ColdArgs wf.iter.returnedElements.length th.args → ColdArgs wf.iter.returnedElements.length th'.args → False

theorem CallInv.start {r0 : CallRace F} (hok : ∀ (i : Nat) wf, r0.wraps[i]? = some wf → wf.OK)
    (hst : ∀ (t : Nat) th, r0.threads[t]? = some th → th.pc = .start) : CallInv r0 r0 := by
  refine ⟨rfl, rfl, ?_, ?_, ?_, ?_, ?_⟩
  · intro f wf0 wf h1 h2
    rw [h1] at h2; cases h2
    exact Core.of_ok (hok f _ h1)
  · intro f wf h _
    exact (hok f wf h).iter.taken
  · intro f wf _ t th ht _ ha
    rw [hst t th ht] at ha; cases ha
  · intro t th0 th h1 h2
    rw [h1] at h2; cases h2
    exact ⟨rfl, rfl, rfl⟩
  · intro t th wf0 wf h1 h2 h3
    rw [hst t th h1]
    exact ⟨True.intro, rfl⟩

theorem CallInv.step {r0 r : CallRace F} (h : CallInv r0 r) (hone : OneCold r0) (t : Nat) : CallInv r0 (r.step t) := by
  unfold CallRace.step
  cases hth : r.threads[t]? with
  | none => exact h
  | some th =>
    simp only
    cases hwf : r.wraps[th.f]? with
    | none => exact h
    | some wf =>
      simp only
      rcases hs : th.pc.step th.args th.kwargs wf with ⟨wf', pc'⟩
      simp only
      have hlt : t < r.threads.length := (List.getElem?_eq_some_iff.mp hth).1
      have hfl : th.f < r.wraps.length := (List.getElem?_eq_some_iff.mp hwf).1
      obtain ⟨wf0, hwf0⟩ : ∃ wf0, r0.wraps[th.f]? = some wf0 :=
        ⟨_, List.getElem?_eq_getElem (by rw [← h.len]; exact hfl)⟩
      obtain ⟨th0, hth0⟩ : ∃ th0, r0.threads[t]? = some th0 :=
        ⟨_, List.getElem?_eq_getElem (by rw [← h.tlen]; exact hlt)⟩
      obtain ⟨e1, e2, e3⟩ := h.same t th0 th hth0 hth
      obtain ⟨tk1, tk2⟩ := h.tok t th wf0 wf hth hwf0 hwf
      have hc := h.core th.f wf0 wf hwf0 hwf
      -- If this thread is fetching, the other threads that call the same function are not
      have others : th.pc.busy = true → ∀ (t' : Nat) th', t' ≠ t → r.threads[t']? = some th' → th'.f = th.f → th'.pc.busy = false := by
        intro hb t' th' hne ht' hf
        cases hb' : th'.pc.busy with
        | false => rfl
        | true =>
          exfalso
          have hlt' : t' < r.threads.length := (List.getElem?_eq_some_iff.mp ht').1
          obtain ⟨th0', hth0'⟩ : ∃ th0, r0.threads[t']? = some th0 :=
            ⟨_, List.getElem?_eq_getElem (by rw [← h.tlen]; exact hlt')⟩
          obtain ⟨e1', e2', e3'⟩ := h.same t' th0' th' hth0' ht'
          have tk' := (h.tok t' th' wf0 wf ht' (by rw [hf]; exact hwf0) (by rw [hf]; exact hwf)).1
          have c1 := TOK_cold tk1 hb
          have c2 := TOK_cold tk' hb'
          rw [e2] at c1
          rw [e2'] at c2
          exact hone t t' th0 th0' wf0 (Ne.symm hne) hth0 hth0' (by rw [← e1, ← e1', hf]) (by rw [← e1]; exact hwf0) c1 c2
      have htaken : th.pc.busy = true → wf.iter.taken = wf.iter.returnedElements.length + (if th.pc.isAppend then 1 else 0) := by
        intro hb
        cases ha : th.pc.isAppend with
        | true => exact h.app th.f wf hwf t th hth rfl ha
        | false =>
          refine h.quiet th.f wf hwf ?_
          intro t' th' ht' hf
          by_cases hne : t' = t
          · subst hne
            rw [hth] at ht'; cases ht'
            exact ha
          · exact not_append_of_quiet (others hb t' th' hne ht' hf)
      obtain ⟨g1, g2, g3, g4⟩ := step_ok hc tk1 htaken hs
      have getw : ∀ (f : Nat) wf1, (r.wraps.set th.f wf')[f]? = some wf1 → (f = th.f ∧ wf1 = wf') ∨ (f ≠ th.f ∧ r.wraps[f]? = some wf1) := by
        intro f wf1 hf
        rw [List.getElem?_set] at hf
        split at hf
        · rename_i he
          cases hf
          exact .inl ⟨he.symm, rfl⟩
        · rename_i he
          exact .inr ⟨fun e => he e.symm, hf⟩
      have gett : ∀ (t' : Nat) th', (r.threads.set t { th with pc := pc' })[t']? = some th' →
          (t' = t ∧ th' = { th with pc := pc' }) ∨ (t' ≠ t ∧ r.threads[t']? = some th') := by
        intro t' th' hf
        rw [List.getElem?_set] at hf
        split at hf
        · rename_i he
          cases hf
          exact .inl ⟨he.symm, rfl⟩
        · rename_i he
          exact .inr ⟨fun e => he e.symm, hf⟩
      refine ⟨by simp [h.len], by simp [h.tlen], ?_, ?_, ?_, ?_, ?_⟩
      · intro f wf0' wf1 hf0 hf1
        rcases getw f wf1 hf1 with ⟨rfl, rfl⟩ | ⟨hne, hf⟩
        · rw [hwf0] at hf0; cases hf0
          exact g1
        · exact h.core f wf0' wf1 hf0 hf
      · intro f wf1 hf1 hall
        rcases getw f wf1 hf1 with ⟨rfl, rfl⟩ | ⟨hne, hf⟩
        · have hpc : pc'.isAppend = false := hall t { th with pc := pc' } (by rw [List.getElem?_set]; simp [hlt]) rfl
          rcases g4 with ⟨i1, i2, i3⟩ | ⟨b1, b2, i3⟩
          · rw [i1]
            refine h.quiet th.f wf hwf ?_
            intro t' th' ht' hf'
            by_cases hne : t' = t
            · subst hne
              rw [hth] at ht'; cases ht'
              exact i3
            · exact hall t' th' (by rw [List.getElem?_set_ne (Ne.symm hne)]; exact ht') hf'
          · rw [i3, hpc]; simp
        · refine h.quiet f wf1 hf ?_
          intro t' th' ht' hf'
          by_cases hn : t' = t
          · subst hn
            rw [hth] at ht'; cases ht'
            exact absurd hf'.symm hne
          · exact hall t' th' (by rw [List.getElem?_set_ne (Ne.symm hn)]; exact ht') hf'
      · intro f wf1 hf1 t' th' ht' hf' ha
        rcases gett t' th' ht' with ⟨rfl, rfl⟩ | ⟨hn, ht''⟩
        · -- this thread
          simp only at hf' ha
          subst hf'
          rcases getw _ wf1 hf1 with ⟨_, rfl⟩ | ⟨hne, _⟩
          · rcases g4 with ⟨_, i2, _⟩ | ⟨_, _, i3⟩
            · rw [i2] at ha; cases ha
            · rw [i3, ha]; simp
          · exact absurd rfl hne
        · rcases getw f wf1 hf1 with ⟨rfl, rfl⟩ | ⟨hne, hf⟩
          · rcases g4 with ⟨i1, _, _⟩ | ⟨b1, _, _⟩
            · rw [i1]
              exact h.app th.f wf hwf t' th' ht'' hf' ha
            · have := not_append_of_quiet (others b1 t' th' hn ht'' hf')
              rw [this] at ha; cases ha
          · exact h.app f wf1 hf t' th' ht'' hf' ha
      · intro t' th0' th' h0 ht'
        rcases gett t' th' ht' with ⟨rfl, rfl⟩ | ⟨hn, ht''⟩
        · exact h.same t' th0' th h0 hth
        · exact h.same t' th0' th' h0 ht''
      · intro t' th' wf0' wf1 ht' hf0 hf1
        rcases gett t' th' ht' with ⟨rfl, rfl⟩ | ⟨hn, ht''⟩
        · simp only at hf0 hf1 ⊢
          rw [hwf0] at hf0; cases hf0
          rcases getw _ wf1 hf1 with ⟨_, rfl⟩ | ⟨hne, _⟩
          · exact ⟨g2, g3.trans tk2⟩
          · exact absurd rfl hne
        · rcases getw _ wf1 hf1 with ⟨he, rfl⟩ | ⟨hne, hf⟩
          · have hold := h.tok t' th' wf0' wf ht'' hf0 (by rw [he]; exact hwf)
            refine ⟨?_, hold.2⟩
            rcases g4 with ⟨i1, _, _⟩ | ⟨b1, _, _⟩
            · exact TOK_iter hold.1 i1
            · exact TOK_quiet hold.1 (others b1 t' th' hn ht'' he)
          · exact h.tok t' th' wf0' wf1 ht'' hf0 hf

theorem CallInv.run {r0 r : CallRace F} (h : CallInv r0 r) (hone : OneCold r0) (sched : List Nat) : CallInv r0 (r.run sched) := by
  induction sched generalizing r with
  | nil => exact h
  | cons t sched ih => exact ih (h.step hone t)

theorem CallInv.wsame {r0 r : CallRace F} (h : CallInv r0 r) (hok : ∀ (i : Nat) wf, r0.wraps[i]? = some wf → wf.OK)
    (hq : ∀ (t : Nat) th, r.threads[t]? = some th → th.pc.isAppend = false) : WSame r0.wraps r.wraps := by
  have key : ∀ i : Nat, (r.wraps[i]? = none ∧ r0.wraps[i]? = none) ∨
      ∃ wf wf0, r.wraps[i]? = some wf ∧ r0.wraps[i]? = some wf0 ∧ Core wf0.df wf0.iter.returnedElements.length wf := by
    intro i
    by_cases hi : i < r.wraps.length
    · right
      exact ⟨_, _, List.getElem?_eq_getElem hi, List.getElem?_eq_getElem (by rw [← h.len]; exact hi),
        h.core i _ _ (List.getElem?_eq_getElem _) (List.getElem?_eq_getElem _)⟩
    · left
      exact ⟨List.getElem?_eq_none (by omega), List.getElem?_eq_none (by rw [← h.len]; omega)⟩
  refine ⟨?_, hok, ?_⟩
  · apply List.ext_getElem?
    intro i
    rw [List.getElem?_map, List.getElem?_map]
    rcases key i with ⟨a, b⟩ | ⟨wf, wf0, a, b, c⟩
    · rw [a, b]
    · rw [a, b]; simp [c.df]
  · intro i wf hi
    rcases key i with ⟨a, b⟩ | ⟨wf1, wf0, a, b, c⟩
    · rw [a] at hi; cases hi
    · rw [a] at hi; cases hi
      exact c.ok (h.quiet i _ a (fun t th ht _ => hq t th ht))

end

/-! ### Calls one after the other -/

section
variable [PyMath F]

theorem arg_eval_ext {env : List (Option (Val F))} (e : List (Option (Val F))) {a : Arg F} {v : Val F} (h : a.eval env = some v) :
    a.eval (env ++ e) = some v := by
  cases a with
  | const c => exact h
  | ref k =>
    simp only [Arg.eval] at h ⊢
    cases hk : env[k]? with
    | none => rw [hk] at h; cases h
    | some o =>
      have hlt := (List.getElem?_eq_some_iff.mp hk).1
      rw [List.getElem?_append_left hlt, hk]
      rw [hk] at h
      exact h

theorem evalArgs_ext {α β : Type} {ev ev' : α → Option β} (h : ∀ a b, ev a = some b → ev' a = some b) {l : List α} {vs : List β}
    (hl : evalArgs ev l = some vs) : evalArgs ev' l = some vs := by
  induction l generalizing vs with
  | nil => exact hl
  | cons a l ih =>
    simp only [evalArgs] at hl ⊢
    cases ha : ev a with
    | none => rw [ha] at hl; cases hl
    | some v =>
      rw [ha] at hl
      cases hl' : evalArgs ev l with
      | none => rw [hl'] at hl; cases hl
      | some ws =>
        rw [hl'] at hl
        rw [h a v ha, ih hl']
        exact hl

theorem evalKw_ext {env : List (Option (Val F))} (e : List (Option (Val F))) (p : String × Arg F) (q : String × Val F)
    (h : Arg.evalKw env p = some q) : Arg.evalKw (env ++ e) p = some q := by
  unfold Arg.evalKw at h ⊢
  cases hp : p.2.eval env with
  | none => rw [hp] at h; cases h
  | some v =>
    rw [hp] at h
    rw [arg_eval_ext e hp]
    exact h

/-- The arguments that a thread starts with. -/
theorem Caller.start_some {m : Machine F} {c : Caller F} {th : CallThread F} (h : c.start m = some th) :
    c.f < m.w.wraps.length ∧ th.f = c.f ∧ th.pc = .start ∧ evalArgs (Arg.eval m.env) c.args = some th.args ∧
      evalArgs (Arg.evalKw m.env) c.kwargs = some th.kwargs := by
  unfold Caller.start at h
  split at h
  · rename_i hf
    cases ha : evalArgs (Arg.eval m.env) c.args with
    | none => rw [ha] at h; cases h
    | some a =>
      cases hk : evalArgs (Arg.evalKw m.env) c.kwargs with
      | none => rw [ha, hk] at h; cases h
      | some k =>
        rw [ha, hk] at h
        cases h
        exact ⟨hf, rfl, rfl, rfl, rfl⟩
  · cases h

/-- A thread that is finished did what a call does. -/
theorem bindCall_seq {m : Machine F} {W : List (Wrapped F)} (h : WSame m.w.wraps W) {c : Caller F} {th : CallThread F} {wf : Wrapped F}
    (hf : th.f = c.f) (hw : W[th.f]? = some wf) (hpc : th.pc = .done (callSpec wf.df th.args th.kwargs))
    (ha : evalArgs (Arg.eval m.env) c.args = some th.args) (hk : evalArgs (Arg.evalKw m.env) c.kwargs = some th.kwargs) :
    (m.withW W).bindCall th.pc = ((m.step c.cmd).1.withW W, some (m.step c.cmd).2) ∧ WSame (m.step c.cmd).1.w.wraps W ∧
      ∃ o, (m.step c.cmd).1.env = m.env ++ [o] := by
  obtain ⟨f, args, kwargs⟩ := c
  simp only at hf ha hk
  subst hf
  rcases h.get th.f with ⟨_, h2⟩ | ⟨wf0, wf', h1, h2, o1, o2, hd⟩
  · rw [hw] at h2; cases h2
  · rw [hw] at h2
    cases h2
    have hlt : th.f < m.w.wraps.length := (List.getElem?_eq_some_iff.mp h1).1
    obtain ⟨wf1, a1, a2, a3⟩ := callTerms_callSpec wf0 o1 th.args th.kwargs
    rw [← hd] at a1
    have hs : WSame (m.w.wraps.set th.f wf1) W := by
      have := h.set th.f a2 o2 (hd.trans a3.symm)
      have hself : W.set th.f wf = W := by
        obtain ⟨hl, he⟩ := List.getElem?_eq_some_iff.mp hw
        rw [← he, List.set_getElem_self]
      rwa [hself] at this
    simp only [Caller.cmd, Machine.step, if_pos hlt, ha, hk, World.call, h1, a1, hpc]
    cases callSpec wf.df th.args th.kwargs with
    | error e => exact ⟨rfl, hs, none, rfl⟩
    | ok r =>
      cases r with
      | inl v => cases v <;> exact ⟨rfl, hs, _, rfl⟩
      | inr p => exact ⟨rfl, hs, _, rfl⟩

/-- What a thread that is not finished leaves: nothing. -/
theorem bindCall_not_done {m : Machine F} {pc : CallPc F} (h : pc.isDone = false) : m.bindCall pc = (⟨m.w, m.env ++ [none]⟩, none) := by
  cases pc with
  | done r => cases h
  | _ => rfl

theorem bindCall_done {m : Machine F} {pc : CallPc F} (h : pc.isDone = true) : ∃ o, (m.bindCall pc).2 = some o := by
  cases pc with
  | done r =>
    cases r with
    | error e => exact ⟨_, rfl⟩
    | ok r => cases r <;> exact ⟨_, rfl⟩
  | _ => cases h

theorem bindCalls_seq {m0 : Machine F} {callers : List (Caller F)} {ths0 ths : List (CallThread F)}
    (hst : evalArgs (Caller.start m0) callers = some ths0) (hlen : ths.length = ths0.length) {W : List (Wrapped F)}
    (hth : ∀ (t : Nat) th0 th, ths0[t]? = some th0 → ths[t]? = some th →
      th.f = th0.f ∧ th.args = th0.args ∧ th.kwargs = th0.kwargs ∧
        (th.pc.isDone = true → ∃ wf, W[th.f]? = some wf ∧ th.pc = .done (callSpec wf.df th.args th.kwargs)))
    {m : Machine F} {e : List (Option (Val F))} (henv : m.env = m0.env ++ e) (h : WSame m.w.wraps W) :
    ∃ os, (m.withW W).bindCalls ths = ((m.run (List.zipWith Caller.did callers os)).1.withW W, os) ∧
      os.length = callers.length ∧
      WSame (m.run (List.zipWith Caller.did callers os)).1.w.wraps W ∧
      (∀ (t : Nat) o, os[t]? = some (some o) → (m.run (List.zipWith Caller.did callers os)).2[t]? = some o) ∧
      (∀ (t : Nat) th, ths[t]? = some th → (os[t]? = some none ↔ th.pc.isDone = false)) := by
  induction callers generalizing ths0 ths m e with
  | nil =>
    cases hst
    cases ths with
    | nil => exact ⟨[], rfl, rfl, h, fun t o ho => by simp at ho, fun t th ht => by simp at ht⟩
    | cons a l => cases hlen
  | cons c callers ih =>
    simp only [evalArgs] at hst
    cases hc : c.start m0 with
    | none => rw [hc] at hst; cases hst
    | some th0 =>
      rw [hc] at hst
      cases hr : evalArgs (Caller.start m0) callers with
      | none => rw [hr] at hst; cases hst
      | some rest0 =>
        rw [hr] at hst
        cases hst
        cases ths with
        | nil => cases hlen
        | cons th ths =>
          obtain ⟨e1, e2, e3, hd⟩ := hth 0 th0 th rfl rfl
          obtain ⟨s1, s2, s3, s4, s5⟩ := Caller.start_some hc
          have ha : evalArgs (Arg.eval m.env) c.args = some th.args := by
            rw [henv, e2]
            exact evalArgs_ext (fun a b hab => arg_eval_ext e hab) s4
          have hk : evalArgs (Arg.evalKw m.env) c.kwargs = some th.kwargs := by
            rw [henv, e3]
            exact evalArgs_ext (fun a b hab => evalKw_ext e a b hab) s5
          have key : ∃ o1, (m.withW W).bindCall th.pc = ((m.step (c.did o1)).1.withW W, o1) ∧ WSame (m.step (c.did o1)).1.w.wraps W ∧
              (∃ x, (m.step (c.did o1)).1.env = m.env ++ [x]) ∧ (∀ o, o1 = some o → (m.step (c.did o1)).2 = o) ∧
              (o1 = none ↔ th.pc.isDone = false) := by
            cases hdn : th.pc.isDone with
            | true =>
              obtain ⟨wf, hw, hpc⟩ := hd hdn
              obtain ⟨b1, b2, b3⟩ := bindCall_seq h (e1.trans s2) hw hpc ha hk
              refine ⟨some (m.step c.cmd).2, b1, b2, b3, ?_, by simp⟩
              intro o ho
              cases ho
              rfl
            | false =>
              refine ⟨none, ?_, h, ⟨none, rfl⟩, ?_, by simp⟩
              · rw [bindCall_not_done hdn]; rfl
              · intro o ho; cases ho
          obtain ⟨o1, b1, b2, ⟨x, b3⟩, b4, b5⟩ := key
          obtain ⟨os, i1, i2, i3, i4, i5⟩ := ih hr (by simpa using hlen) (fun t x y hx hy => hth (t + 1) x y hx hy)
            (m := (m.step (c.did o1)).1) (e := e ++ [x]) (by rw [b3, henv, List.append_assoc]) b2
          refine ⟨o1 :: os, ?_, by simp [i2], i3, ?_, ?_⟩
          · simp only [List.zipWith_cons_cons, Machine.run, Machine.bindCalls, b1, i1]
          · intro t o ht
            cases t with
            | zero =>
              simp only [List.getElem?_cons_zero, Option.some.injEq] at ht
              simp only [List.zipWith_cons_cons, Machine.run, List.getElem?_cons_zero, b4 o ht]
            | succ t =>
              simp only [List.getElem?_cons_succ] at ht
              simp only [List.zipWith_cons_cons, Machine.run, List.getElem?_cons_succ]
              exact i4 t o ht
          · intro t th' ht
            cases t with
            | zero =>
              simp only [List.getElem?_cons_zero, Option.some.injEq] at ht ⊢
              subst ht
              exact b5
            | succ t =>
              simp only [List.getElem?_cons_succ] at ht ⊢
              exact i5 t th' ht

end

/-! ### Number of operations -/

/-- Bound on the number of operations from the loop over the positional arguments on. -/
def posLeft (nkw k n : Nat) : Nat := n * (2 * (k + n) + 6) + nkw + 2

/-- Bound on the number of operations that a thread has still to do. -/
def CallPc.left (args : List (Val F)) (nkw : Nat) : CallPc F → Nat
  | .start => posLeft nkw 0 args.length + 1
  | .pos _ k rest _ => posLeft nkw k rest.length
  | .range _ k _ rest _ => posLeft nkw (k + 1) rest.length + 2 * (k + 1) + 4
  | .next _ k _ rest _ p => posLeft nkw (k + 1) rest.length + 2 * (k + 1 - p) + 3
  | .append _ k _ rest _ p _ => posLeft nkw (k + 1) rest.length + 2 * (k - p) + 4
  | .get _ k _ rest _ => posLeft nkw (k + 1) rest.length + 2
  | .kw _ rest _ => rest.length + 1
  | .done _ => 0

theorem posLeft_succ (nkw k n : Nat) : posLeft nkw k (n + 1) = posLeft nkw (k + 1) n + (2 * (k + n + 1) + 6) := by
  unfold posLeft
  have : k + 1 + n = k + (n + 1) := by omega
  rw [this, Nat.add_mul]
  omega

section
variable [PyFloat F]

theorem coef_left (args : List (Val F)) (kwargs : List (String × Val F)) (v : PyVal F) (k : Nat) (u : UF F) (rest : List (Val F))
    (acc : List (Item F)) (o : Option (DerivFn F)) (nkw : Nat) :
    (CallPc.coef args kwargs v k u rest acc o).left args nkw ≤ posLeft nkw (k + 1) rest.length := by
  unfold CallPc.coef
  cases o with
  | none => exact Nat.zero_le _
  | some d =>
    simp only
    cases d (args.map Val.nominal) (kwargs.map fun p => (p.1, p.2.nominal)) with
    | error e => exact Nat.zero_le _
    | ok c => exact Nat.le_refl _

theorem step_left (args : List (Val F)) (kwargs : List (String × Val F)) (wf : Wrapped F) (pc : CallPc F) :
    (pc.step args kwargs wf).2.left args kwargs.length ≤ pc.left args kwargs.length - 1 := by
  cases pc with
  | start =>
    simp only [CallPc.step]
    cases wf.df.f (args.map Val.nominal) (kwargs.map fun p => (p.1, p.2.nominal)) with
    | error e => exact Nat.zero_le _
    | ok v =>
      simp only
      split
      · exact Nat.zero_le _
      · split
        · exact Nat.zero_le _
        · exact Nat.le_refl _
  | pos v k rest acc =>
    cases rest with
    | nil => simp [CallPc.step, CallPc.left, posLeft]
    | cons a rest =>
      have hp := posLeft_succ kwargs.length k rest.length
      cases a with
      | plain x =>
        simp only [CallPc.step, CallPc.left, List.length_cons, hp]
        omega
      | unc u =>
        simp only [CallPc.step]
        cases wf.iter.returnedElements[k]? with
        | none =>
          simp only [CallPc.left, List.length_cons, hp]
          omega
        | some o =>
          refine Nat.le_trans (coef_left args kwargs v k u rest acc o kwargs.length) ?_
          simp only [CallPc.left, List.length_cons, hp]
          omega
  | range v k u rest acc =>
    simp only [CallPc.step, CallPc.left]
    omega
  | next v k u rest acc p =>
    simp only [CallPc.step]
    split
    · simp only [CallPc.left]; omega
    · simp only [CallPc.left]; omega
  | append v k u rest acc p value =>
    simp only [CallPc.step, CallPc.left]
    omega
  | get v k u rest acc =>
    simp only [CallPc.step]
    cases wf.iter.returnedElements[k]? with
    | none => exact Nat.zero_le _
    | some o =>
      refine Nat.le_trans (coef_left args kwargs v k u rest acc o kwargs.length) ?_
      simp only [CallPc.left]
      omega
  | kw v rest acc =>
    cases rest with
    | nil =>
      simp only [CallPc.step]
      cases v.toFloat <;> exact Nat.zero_le _
    | cons a rest =>
      obtain ⟨name, a⟩ := a
      cases a with
      | plain x => simp [CallPc.step, CallPc.left]
      | unc u =>
        simp only [CallPc.step]
        rcases wf.kwDeriv name with ⟨wf1, d⟩
        simp only
        cases d (args.map Val.nominal) (kwargs.map fun p => (p.1, p.2.nominal)) with
        | error e => exact Nat.zero_le _
        | ok c => simp [CallPc.left]
  | done r => simp [CallPc.step, CallPc.left]

theorem left_zero {args : List (Val F)} {nkw : Nat} {pc : CallPc F} (h : pc.left args nkw = 0) : pc.isDone = true := by
  cases pc with
  | done r => rfl
  | pos v k rest acc => simp only [CallPc.left, posLeft] at h; omega
  | start => simp only [CallPc.left] at h; omega
  | kw v rest acc => simp only [CallPc.left] at h; omega
  | range v k u rest acc => simp only [CallPc.left] at h; omega
  | next v k u rest acc p => simp only [CallPc.left] at h; omega
  | append v k u rest acc p value => simp only [CallPc.left] at h; omega
  | get v k u rest acc => simp only [CallPc.left] at h; omega

theorem run_left (sched : List Nat) (r : CallRace F) (t : Nat) (th : CallThread F) (hth : r.threads[t]? = some th)
    (hf : th.f < r.wraps.length) :
    ∃ th', (r.run sched).threads[t]? = some th' ∧
      th'.pc.left th.args th.kwargs.length ≤ th.pc.left th.args th.kwargs.length - sched.count t := by
  induction sched generalizing r th with
  | nil => exact ⟨th, hth, by simp⟩
  | cons s sched ih =>
    have key : ∃ th1, (r.step s).threads[t]? = some th1 ∧ th1.f = th.f ∧ th1.args = th.args ∧ th1.kwargs = th.kwargs ∧
        (r.step s).wraps.length = r.wraps.length ∧
        th1.pc.left th.args th.kwargs.length ≤ th.pc.left th.args th.kwargs.length - (if s = t then 1 else 0) := by
      unfold CallRace.step
      cases hs : r.threads[s]? with
      | none =>
        have hne : s ≠ t := by intro e; rw [e, hth] at hs; cases hs
        exact ⟨th, hth, rfl, rfl, rfl, rfl, by simp [hne]⟩
      | some ths =>
        simp only
        cases hw : r.wraps[ths.f]? with
        | none =>
          have hne : s ≠ t := by
            intro e
            rw [e, hth] at hs
            cases hs
            rw [List.getElem?_eq_getElem hf] at hw; cases hw
          exact ⟨th, hth, rfl, rfl, rfl, rfl, by simp [hne]⟩
        | some wf =>
          simp only
          by_cases he : s = t
          · subst he
            rw [hth] at hs
            cases hs
            refine ⟨{ th with pc := (th.pc.step th.args th.kwargs wf).2 },
              by rw [List.getElem?_set]; simp [(List.getElem?_eq_some_iff.mp hth).1], rfl, rfl, rfl, by simp, ?_⟩
            simpa using step_left th.args th.kwargs wf th.pc
          · refine ⟨th, by rw [List.getElem?_set_ne he]; exact hth, rfl, rfl, rfl, by simp, by simp [he]⟩
    obtain ⟨th1, a1, a2, a3, a4, a5, a6⟩ := key
    obtain ⟨th', b1, b2⟩ := ih (r.step s) th1 a1 (by rw [a2, a5]; exact hf)
    refine ⟨th', b1, ?_⟩
    rw [a3, a4] at b2
    rw [List.count_cons]
    have : (if (s == t) = true then 1 else 0 : Nat) = if s = t then 1 else 0 := by simp
    rw [this]
    split at a6 <;> simp_all <;> omega

end

end Unc
